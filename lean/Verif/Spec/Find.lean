import Verif.Spec.Utf8

/-!
# Searching
-/

namespace Xi

namespace Find

/-- `P` holds at the result and nowhere from `p` to there; or nowhere from `p` on. -/
def IsFirst (P : Nat → Prop) (p : Nat) : Option Nat → Prop
  | some q => p ≤ q ∧ P q ∧ ∀ k, p ≤ k → k < q → ¬ P k
  | none => ∀ k, p ≤ k → ¬ P k

/-- The encoding of a string. -/
abbrev enc (cs : List Char) : List UInt8 := cs.flatMap String.utf8EncodeChar

/-- The pattern stands at `p`, byte for byte. -/
def ExactAt (s : List UInt8) (pat : List Char) (p : Nat) : Prop := enc pat <+: s.drop p

/-- The text from `p` on, in lower case, starts with `low`. -/
def CaseAt (lower : Char → List Char) (s : List UInt8) (low : List Char) (p : Nat) : Prop :=
  ∃ a b, s = enc a ++ enc b ∧ p = (enc a).length ∧ low <+: b.flatMap lower

/-- The match at `p` ends at `e`: no shorter piece of the text will do. -/
def CaseEnd (lower : Char → List Char) (s : List UInt8) (low : List Char) (p e : Nat) : Prop :=
  ∃ a u b, s = enc a ++ (enc u ++ enc b) ∧ p = (enc a).length ∧ e = (enc a).length + (enc u).length ∧ low <+: u.flatMap lower ∧
    ∀ v, v <+: u → v ≠ u → ¬ low <+: v.flatMap lower

end Find

end Xi
