import Verif.Core.EditOps
import Verif.Spec.Delta
import Verif.Spec.LineStarts
import Verif.Props.Selection

/-!
# What editing commands do
-/

namespace Xi

namespace EditOps

/-- Replacements: where they start and end, and the new bytes. -/
abbrev Script := List (Nat × Nat × List UInt8)

/-- A selection in the text `r`: sorted, disjoint, and never inside a character. -/
structure Valid (r : Rope) (s : Selection) : Prop where
  inv : s.Inv
  ends : ∀ q ∈ s, CharBoundary r.text q.start ∧ CharBoundary r.text q.stop

/-- The command does not panic, and its edit makes exactly these replacements in the text. -/
def Makes (t : List UInt8) (d : Option (Delta UInt8)) (script : Script) : Prop :=
  ∃ d', d = some d' ∧ d'.WF ∧ d'.baseLen = t.length ∧ d'.apply t = some (replaced t 0 script)

/-- No replacement starts before the end of the one before. -/
def Ordered : Nat → Script → Prop
  | _, [] => True
  | lo, (s, e, _) :: rest => lo ≤ s ∧ Ordered e rest

/-- The bytes of `t` whose offset satisfies `P`. -/
noncomputable def kept (t : List UInt8) (P : Nat → Prop) : List UInt8 :=
  open Classical in (t.zipIdx.filter (fun x => decide (P x.2))).map Prod.fst

/-- The text from `a` to `b`. -/
def piece (t : List UInt8) (a b : Nat) : List UInt8 := (t.take b).drop a

/-- The regions that are not carets. -/
def ranges (s : Selection) : List SelRegion := s.filter (fun q => !q.isCaret)

/-- The region touches line `n`: its start, or a byte of it, is there. -/
def Touches (starts : List Nat) (q : SelRegion) (n : Nat) : Prop := ∃ s o, OnLine starts n s o ∧ q.lo ≤ o ∧ (o = q.lo ∨ o < q.hi)

end EditOps

end Xi
