import Verif.Rope.BreaksLemmas
import Verif.Rope.RopeLemmas
import Verif.Spec.Lines
import Verif.Spec.Cursor
import Verif.Core.VisualLines

/-!
# What visual lines are

The text is `t`; `b` has, for every byte, whether there is a soft break right
after it.
-/

namespace Xi

/-- A visual line other than the first starts at `k`: right after a newline or at a
soft break. -/
def Starts (t : List UInt8) (b : List Bool) (k : Nat) : Prop := LineBoundary t k ∨ BreakAt b k

/-- The number of newlines before `k` and of soft breaks up to `k`: the number of
the visual line that `k` is on. -/
def lineIndex (t : List UInt8) (b : List Bool) (k : Nat) : Nat := (t.take k).count newline + (b.take k).count true

/-- The visual line number `n` starts at `o`. -/
def LineAt (t : List UInt8) (b : List Bool) (n o : Nat) : Prop :=
  n = 0 ∧ o = 0 ∨ Starts t b o ∧ o ≤ t.length ∧ lineIndex t b o = n

open Classical in
/-- The number shown for a visual line that starts at `o`: only the first of a
logical line has one. -/
noncomputable def shownNumber (t : List UInt8) (o : Nat) : Option Nat :=
  if o = 0 ∨ LineBoundary t o then some ((t.take o).count newline + 1) else none

/-- The visual lines from the one that starts at `o` to the end of the text. -/
inductive LinesFrom (t : List UInt8) (b : List Bool) : Nat → List VisualLine → Prop
  | last {o} (h : IsNext (Starts t b) t.length o none) : LinesFrom t b o [⟨⟨o, t.length⟩, shownNumber t o⟩]
  | more {o p ls} (h : IsNext (Starts t b) t.length o (some p)) (hs : LinesFrom t b p ls) :
      LinesFrom t b o (⟨⟨o, p⟩, shownNumber t o⟩ :: ls)

/-- The text and the soft breaks fit together. -/
structure Agree (r : Rope) (b : Breaks) : Prop where
  text : r.Balanced
  breaks : b.Balanced
  len : b.text.length = r.text.length
  apart : ∀ k, LineBoundary r.text k → ¬ BreakAt b.text k
  chars : ∀ k, BreakAt b.text k → CharBoundary r.text k

end Xi
