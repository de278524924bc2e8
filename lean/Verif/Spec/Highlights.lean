import Verif.Props.Find
import Verif.Props.Selection

/-!
# Search highlights: what they should be
-/

namespace Xi

/-- The pattern occurs in the text `s` from `p` to `e`. -/
def Find.Match (lower : CaseTable) (s : List UInt8) (cm : CaseMatching) (pat : List Char) (p e : Nat) : Prop :=
  Find.Occurs lower s cm pat p ∧ Find.Ends lower s cm pat p e

/-- The matches from `c` on, from left to right, each the first that begins at or after the end
of the one before. -/
inductive Leftmost (M : Nat → Nat → Prop) : Nat → List (Nat × Nat) → Prop
  | done {c : Nat} : (∀ p e, c ≤ p → ¬ M p e) → Leftmost M c []
  | step {c p e : Nat} {l : List (Nat × Nat)} : c ≤ p → M p e → (∀ p' e', c ≤ p' → p' < p → ¬ M p' e') → Leftmost M e l → Leftmost M c ((p, e) :: l)

/-- Each highlight is a match, and they do not overlap. -/
def Sound (lower : CaseTable) (s : List UInt8) (cm : CaseMatching) (pat : List Char) (occ : Selection) : Prop :=
  Selection.Inv occ ∧ ∀ r ∈ occ, r.start < r.stop ∧ Find.Match lower s cm pat r.start r.stop

/-- The highlights are exactly the matches a reader would mark from left to right. -/
def Exact (lower : CaseTable) (s : List UInt8) (cm : CaseMatching) (pat : List Char) (occ : Selection) : Prop :=
  Leftmost (Find.Match lower s cm pat) 0 (occ.map fun r => (r.start, r.stop))

end Xi
