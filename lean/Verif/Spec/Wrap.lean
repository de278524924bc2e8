import Verif.Core.Wrap
import Verif.Spec.VisualLines
import Verif.Spec.Interval

/-!
# What wrapping from scratch gives
-/

namespace Xi

/-- In the text `A ++ s ++ B`, `s` is a whole logical line (with its newline). -/
structure IsLogical (A s B : List UInt8) : Prop where
  start : A = [] ∨ A.getLast? = some newline
  inner : newline ∉ s.dropLast
  stop : s.getLast? = some newline ∨ B = []

/-- What is assumed of the rule: it moves forward inside of the line and keeps
characters whole; it reaches the end of the line just when there is a newline. -/
structure WrapRule.Ok (rule : WrapRule) : Prop where
  forward : ∀ {s i j}, rule s i = some j → i < j ∧ j ≤ s.length
  final : ∀ {s i}, rule s i = some s.length → s.getLast? = some newline
  gives : ∀ {s i}, newline ∉ s.dropLast → s.getLast? = some newline → i < s.length → ∃ j, rule s i = some j
  chars : ∀ {s i j}, Utf8 s → rule s i = some j → CharBoundary s j

/-- The places that the rule reaches from the start of the line. -/
inductive Reach (rule : WrapRule) (s : List UInt8) : Nat → Prop
  | zero : Reach rule s 0
  | step {i j} (h : Reach rule s i) (e : rule s i = some j) : Reach rule s j

/-- There is a soft break at `k` when the text is wrapped from scratch: `k` is a place
inside of a logical line that the rule reaches. -/
def Soft (rule : WrapRule) (t : List UInt8) (k : Nat) : Prop :=
  ∃ A s B i, t = A ++ (s ++ B) ∧ IsLogical A s B ∧ 0 < i ∧ i < s.length ∧ Reach rule s i ∧ k = A.length + i

end Xi
