import Verif.Rope.Str
import Verif.Spec.Utf8
import Verif.Spec.Lines

/-!
# What cursors should do, on plain strings
-/

namespace Xi

/-- `r` is the nearest place before `p` where `B` holds. -/
def IsPrev (B : Nat → Prop) (p : Nat) : Option Nat → Prop
  | some b => b < p ∧ B b ∧ ∀ k, b < k → k < p → ¬ B k
  | none => ∀ k, k < p → ¬ B k

/-- `r` is the nearest place after `p`, up to `n`, where `B` holds. -/
def IsNext (B : Nat → Prop) (n p : Nat) : Option Nat → Prop
  | some b => p < b ∧ b ≤ n ∧ B b ∧ ∀ k, p < k → k < b → ¬ B k
  | none => ∀ k, p < k → k ≤ n → ¬ B k

/-- `r` is the first place from `p` on, up to `n`, where `B` holds. -/
def IsAtOrNext (B : Nat → Prop) (n p : Nat) : Option Nat → Prop
  | some b => p ≤ b ∧ b ≤ n ∧ B b ∧ ∀ k, p ≤ k → k < b → ¬ B k
  | none => ∀ k, p ≤ k → k ≤ n → ¬ B k

/-- The metrics of ropes. -/
inductive RopeMetric where
  | base
  | lines
  | utf16

/-- The boundaries of a metric: the starts of lines for `lines`, and the
boundaries of characters for the others. -/
def RopeMetric.Boundary : RopeMetric → List UInt8 → Nat → Prop
  | .lines => LineBoundary
  | _ => CharBoundary

/-- A call on a cursor. -/
inductive CursorCall where
  | set (p : Nat)
  | isBoundary (m : RopeMetric)
  | prev (m : RopeMetric)
  | next (m : RopeMetric)
  | atOrPrev (m : RopeMetric)
  | atOrNext (m : RopeMetric)
  | prevCodepoint
  | nextCodepoint
  | peekNextCodepoint

/-- What a call returns. -/
inductive CursorReply where
  | done
  | flag (b : Bool)
  | place (p : Option Nat)
  | char (c : Option Char)
deriving DecidableEq

/-- The character that starts at `p`; none at the end. -/
def CharAt (s : List UInt8) (p : Nat) : Option Char → Prop
  | some c => ∃ t, s.drop p = String.utf8EncodeChar c ++ t
  | none => p = s.length

/-- What a call should do: the state is the position, `none` when the cursor is
invalid.  Moving forward by a metric other than `lines` is only specified from a
character boundary. -/
inductive CursorStep (s : List UInt8) : Option Nat → CursorCall → CursorReply → Option Nat → Prop
  | set {st p} (h : p ≤ s.length) : CursorStep s st (.set p) .done (some p)
  | isBoundary {m p b} (h : b = true ↔ m.Boundary s p) : CursorStep s (some p) (.isBoundary m) (.flag b) (some p)
  | isBoundaryLost {m} : CursorStep s none (.isBoundary m) (.flag false) none
  | prev {m p r} (h : IsPrev (m.Boundary s) p r) : CursorStep s (some p) (.prev m) (.place r) r
  | prevLost {m} : CursorStep s none (.prev m) (.place none) none
  | next {m p r} (hp : m = .lines ∨ CharBoundary s p) (h : IsNext (m.Boundary s) s.length p r) :
      CursorStep s (some p) (.next m) (.place r) r
  | nextLost {m} : CursorStep s none (.next m) (.place none) none
  | atOrPrev {m p r} (h : IsPrev (m.Boundary s) (p + 1) r) : CursorStep s (some p) (.atOrPrev m) (.place r) r
  | atOrPrevLost {m} : CursorStep s none (.atOrPrev m) (.place none) none
  | atOrNext {m p r} (hp : m = .lines ∨ CharBoundary s p) (h : IsAtOrNext (m.Boundary s) s.length p r) :
      CursorStep s (some p) (.atOrNext m) (.place r) r
  | atOrNextLost {m} : CursorStep s none (.atOrNext m) (.place none) none
  | prevCodepoint {p q c} (h : IsPrev (CharBoundary s) p (some q)) (hc : CharAt s q c) :
      CursorStep s (some p) .prevCodepoint (.char c) (some q)
  | prevCodepointNone : CursorStep s (some 0) .prevCodepoint (.char none) none
  | prevCodepointLost : CursorStep s none .prevCodepoint (.char none) none
  | nextCodepoint {p r c} (hp : CharBoundary s p) (hc : CharAt s p c) (h : IsNext (CharBoundary s) s.length p r) :
      CursorStep s (some p) .nextCodepoint (.char c) r
  | nextCodepointLost : CursorStep s none .nextCodepoint (.char none) none
  | peek {p c} (hp : CharBoundary s p) (hc : CharAt s p c) : CursorStep s (some p) .peekNextCodepoint (.char c) (some p)
  | peekLost : CursorStep s none .peekNextCodepoint (.char none) none

/-- What a sequence of calls should return. -/
inductive CursorTrace (s : List UInt8) : Option Nat → List CursorCall → List CursorReply → Prop
  | nil {st} : CursorTrace s st [] []
  | cons {st call reply st' calls replies} (h : CursorStep s st call reply st') (ht : CursorTrace s st' calls replies) :
      CursorTrace s st (call :: calls) (reply :: replies)

end Xi
