import Verif.Core.Selection
import Verif.Core.Backspace
import Verif.Core.VisualLines
import Verif.Rope.RopeLemmas

/-!
# Model of `rust/core-lib/src/line_offset.rs` and of the grapheme clusters of `rust/rope/src/rope.rs`

Which places of a text are between grapheme clusters is decided by the crate
`unicode-segmentation`, which is not modelled: it is a parameter (`Graphemes`).  How rope.rs feeds
that crate the leaves of the rope (rope.rs:674-732) is not modelled either: the crate is taken to
see the whole text.
-/

namespace Xi

/-- The places of a text that are between grapheme clusters (crate `unicode-segmentation`). -/
structure Graphemes where
  boundary : List UInt8 → Nat → Bool

namespace Graphemes

/-- `Rope::prev_grapheme_offset`, rope.rs:439-442 (with `prev_grapheme`, 704-732); the outer `none`
is the panic of `Cursor::new` beyond the end. -/
def prevOffset (g : Graphemes) (text : Rope) (offset : Nat) : Option (Option Nat) :=
  if offset ≤ text.len then some ((List.range offset).reverse.find? (g.boundary text.text)) else none

/-- `Rope::next_grapheme_offset`, rope.rs:444-447 (with `next_grapheme`, 674-702). -/
def nextOffset (g : Graphemes) (text : Rope) (offset : Nat) : Option (Option Nat) :=
  if offset ≤ text.len then some (((List.range (text.len + 1)).drop (offset + 1)).find? (g.boundary text.text)) else none

end Graphemes

/-- `trait LineOffset`, line_offset.rs:25-41: the two methods that the implementations give. -/
structure LineOffset where
  offsetOfLine : Rope → Nat → Option Nat
  lineOfOffset : Rope → Nat → Option Nat

namespace LineOffset

/-- `impl LineOffset for LogicalLines`, line_offset.rs:92, with the default methods, 29-36. -/
def logicalLines : LineOffset := ⟨Rope.offsetOfLine, Rope.lineOfOffset⟩

/-- `impl LineOffset for Lines`, line_offset.rs:106-114. -/
def visualLines (wraps : Bool) (breaks : Breaks) : LineOffset := ⟨offsetOfVisualLine wraps breaks, visualLineOfOffset wraps breaks⟩

/-- `offset_to_line_col`, line_offset.rs:49-52; `none` also if the subtraction underflows. -/
def offsetToLineCol (self : LineOffset) (text : Rope) (offset : Nat) : Option (Nat × Nat) := do
  let line ← self.lineOfOffset text offset
  let start ← self.offsetOfLine text line
  if start ≤ offset then some (line, offset - start) else none

/-- The end of `line_col_to_offset`, line_offset.rs:66-73: stay on the line. -/
def clampToLine (self : LineOffset) (g : Graphemes) (text : Rope) (line offset : Nat) : Option Nat := do
  let nextLineOffset ← self.offsetOfLine text (line + 1)
  if nextLineOffset ≤ offset then return (← g.prevOffset text nextLineOffset).getD offset
  else return offset

/-- `line_col_to_offset`, line_offset.rs:54-74.  The addition saturates in the code. -/
def lineColToOffset (self : LineOffset) (g : Graphemes) (text : Rope) (line col : Nat) : Option Nat := do
  let offset := (← self.offsetOfLine text line) + col
  if text.len ≤ offset then
    if (← self.lineOfOffset text text.len) ≤ line then return text.len
    else self.clampToLine g text line text.len
  else
    let offset ← ← g.prevOffset text (offset + 1)
    self.clampToLine g text line offset

/-- `get_line_range`, line_offset.rs:77-85: the first line and the line after the last. -/
def getLineRange (self : LineOffset) (text : Rope) (region : SelRegion) : Option (Nat × Nat) := do
  let (firstLine, _) ← self.offsetToLineCol text region.lo
  let (lastLine, lastCol) ← self.offsetToLineCol text region.hi
  return (firstLine, (if lastCol = 0 ∧ lastLine > firstLine then lastLine - 1 else lastLine) + 1)

end LineOffset

end Xi
