import Verif.Core.LineBreakCursor
import Verif.Spec.Utf8

/-!
# Filling lines
-/

namespace Xi

variable {W : Type}

/-- The end of the line that starts at `start`, given the places where it may (`false`) or must
(`true`) be broken: the words up to `pos` have been put on the line and are `lw` wide.  A
word is added as long as the line stays within the width; a word that is too wide is put on
a line of its own.  No break is made at the end of the text. -/
def fill (ops : WidthOps W) (width : Nat → Nat → W) (maxWidth : W) : W → Nat → List (Nat × Bool) → Option Nat
  | _, _, [] => none
  | lw, pos, b :: rest =>
    if b.2 = false then
      if ops.isZero lw && ops.ge (width pos b.1) maxWidth then (if rest.isEmpty then none else some b.1)
      else if ops.gt (ops.add lw (width pos b.1)) maxWidth then some pos
      else fill ops width maxWidth (ops.add lw (width pos b.1)) b.1 rest
    else if !ops.isZero lw && ops.gt (ops.add (width pos b.1) lw) maxWidth then some pos
    else some b.1

end Xi

namespace Xi

open Unicode

variable {W : Type}

/-- Where a line taken by itself may or must be broken.  The end must be a break if the line has
a newline. -/
def lineStream (s : List UInt8) : List (Nat × Bool) :=
  if s = [] then [] else ((lineBreaks s).getD []).dropLast ++ [(s.length, s.getLast? == some newline)]

open Classical in
/-- The rule for breaking a line: fill it.  (What happens with text that is not UTF-8 does not
matter.) -/
noncomputable def fillRule (ops : WidthOps W) (measure : List UInt8 → W) (maxWidth : W) : WrapRule := fun s i =>
  if Utf8 s then fill ops (fun a b => measure ((s.take b).drop a)) maxWidth ops.zero i ((lineStream s).filter fun b => decide (i < b.1))
  else if s.getLast? = some newline ∧ i < s.length then some s.length else none

/-- What the arithmetic of widths has to satisfy; that of `f64` does. -/
structure WidthOps.Laws (ops : WidthOps W) : Prop where
  zero : ops.isZero ops.zero = true
  keeps : ∀ {l w m}, ops.isZero l = true → ops.ge w m = false → ops.gt (ops.add l w) m = false
  comm : ∀ l w, ops.add l w = ops.add w l

/-- The width of the words that end at the breaks `T`, after a start of width `lw` that ends at `pos`. -/
def lineWidth (ops : WidthOps W) (width : Nat → Nat → W) : W → Nat → List (Nat × Bool) → W
  | lw, _, [] => lw
  | lw, pos, b :: rest => lineWidth ops width (ops.add lw (width pos b.1)) b.1 rest

/-- Where the words end. -/
def lastPos (pos : Nat) (T : List (Nat × Bool)) : Nat := (T.getLast?.map (·.1)).getD pos

end Xi
