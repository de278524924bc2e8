import Verif.Spec.Utf8

/-!
# Comparing texts
-/

namespace Xi

/-- `i` is the first index at which the two sequences differ; `none` if they agree
as far as both of them go. -/
def IsFirstDifference (a b : List UInt8) : Option Nat → Prop
  | some i => i < a.length ∧ i < b.length ∧ a[i]? ≠ b[i]? ∧ ∀ k, k < i → a[k]? = b[k]?
  | none => ∀ k, k < a.length → k < b.length → a[k]? = b[k]?

/-- The first `r` bytes of `a` and of `b` are the same, and are whole characters. -/
def CommonPrefix (a b : List UInt8) (r : Nat) : Prop :=
  r ≤ a.length ∧ r ≤ b.length ∧ a.take r = b.take r ∧ Utf8 (a.take r)

/-- The last `r` bytes of `a` and of `b` are the same. -/
def SameSuffix (a b : List UInt8) (r : Nat) : Prop :=
  r ≤ a.length ∧ r ≤ b.length ∧ a.drop (a.length - r) = b.drop (b.length - r)

/-- The last `r` bytes of `a` and of `b` are the same, and are whole characters. -/
def CommonSuffix (a b : List UInt8) (r : Nat) : Prop :=
  SameSuffix a b r ∧ Utf8 (a.drop (a.length - r))

/-- `r` is the largest number with the property. -/
def IsLargest (P : Nat → Prop) (r : Nat) : Prop := P r ∧ ∀ r', P r' → r' ≤ r

/-- The character occurs in the text. -/
def HasChar (s : List UInt8) (c : Char) : Prop :=
  ∃ x y, s = x ++ (String.utf8EncodeChar c ++ y) ∧ Utf8 x ∧ Utf8 y

/-- No character of `s` ends with the same byte as a different character of `t`.
(So it is, for one, if one of the texts is plain ASCII.) -/
def LastBytesApart (s t : List UInt8) : Prop :=
  ∀ c d, HasChar s c → HasChar t d → (String.utf8EncodeChar c).getLast? = (String.utf8EncodeChar d).getLast? → c = d

end Xi
