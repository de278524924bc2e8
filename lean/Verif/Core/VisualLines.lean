import Verif.Rope.Breaks
import Verif.Rope.Cursor
import Verif.Rope.Rope

/-!
# Model of `rust/core-lib/src/linewrap.rs`: hard and soft breaks together
-/

namespace Xi

/-- `struct MergedBreaks`, linewrap.rs:644-653. -/
structure MergedBreaks where
  text : Cursor (List UInt8) RopeInfo
  soft : Cursor BreaksLeaf BreaksInfo
  offset : Nat
  curLine : Nat
  totalLines : Nat
  len : Nat

namespace MergedBreaks

/-- `MAX_LINEAR_DIST`, linewrap.rs:681. -/
abbrev maxLinearDist : Nat := 20

/-- `MergedBreaks::new`, linewrap.rs:684-692. -/
def new (text : Rope) (breaks : Breaks) : Option MergedBreaks :=
  if text.len ≠ breaks.len then none
  else do
    let t ← Cursor.new text 0
    let s ← Cursor.new breaks 0
    return ⟨t, s, 0, 0, t.root.measure linesMetric + s.root.measure breaksMetric + 1, t.root.len⟩

/-- `is_hard_break`, linewrap.rs:757-759. -/
def isHardBreak (m : MergedBreaks) : Bool := m.offset == m.text.position

/-- `at_eof`, linewrap.rs:761-763. -/
def atEof (m : MergedBreaks) : Bool := m.offset == m.len

/-- `eof_without_newline`, linewrap.rs:765-769. -/
def eofWithoutNewline (m : MergedBreaks) : Option (MergedBreaks × Bool) :=
  if m.atEof = false then none
  else do
    let t ← m.text.set m.len
    let (l, _) ← (← t.getLeaf)
    return ({ m with text := t }, l.getLast? != some newline)

/-- The test of linewrap.rs:669, with its effect on the text cursor. -/
def lastCheck (m : MergedBreaks) : Option (MergedBreaks × Bool) :=
  if m.offset > 0 ∧ m.atEof = true then m.eofWithoutNewline else some (m, false)

/-- The text cursor after linewrap.rs:659-662. -/
def textStep (m : MergedBreaks) : Option (Cursor (List UInt8) RopeInfo) :=
  if m.text.position = m.offset ∧ m.atEof = false then (m.text.next linesMetric).map Prod.fst else some m.text

/-- The cursor of the soft breaks after linewrap.rs:663-665. -/
def softStep (m : MergedBreaks) : Option (Cursor BreaksLeaf BreaksInfo) :=
  if m.soft.position = m.offset then (m.soft.next breaksMetric).map Prod.fst else some m.soft

/-- `MergedBreaks::next`, linewrap.rs:658-676. -/
def next (m : MergedBreaks) : Option (MergedBreaks × Option Nat) := do
  let t ← m.textStep
  let s ← m.softStep
  let prevOff := m.offset
  let (m, stuck) ← lastCheck { m with text := t, soft := s, offset := min t.position s.position }
  if m.offset = prevOff ∨ stuck = true then return (m, none)
  else return ({ m with curLine := m.curLine + 1 }, some m.offset)

/-- `merged_line_of_offset`, linewrap.rs:772-774. -/
def mergedLineOfOffset (text : Rope) (soft : Breaks) (offset : Nat) : Option Nat := do
  return (← text.count linesMetric offset) + (← soft.count offset)

/-- One of the two branches of linewrap.rs:699-706: unless `offset` is 0, to the
boundary at or before it, or else to 0. -/
def backTo {L I : Type} [TreeLeaf L I] (offset : Nat) (c : Cursor L I) (M : Metric L I) : Option (Cursor L I) :=
  if offset > 0 then do
    let (c, r) ← c.atOrPrev M
    if r.isNone then c.set 0 else return c
  else some c

/-- The match of linewrap.rs:710-718. -/
def alignCursors (t : Cursor (List UInt8) RopeInfo) (s : Cursor BreaksLeaf BreaksInfo) :
    Option (Cursor (List UInt8) RopeInfo × Cursor BreaksLeaf BreaksInfo) :=
  if t.position < s.position then (t.next linesMetric).map (fun r => (r.1, s))
  else if t.position > s.position then (s.next breaksMetric).map (fun r => (t, r.1))
  else if t.position = 0 then some (t, s) else none

/-- `set_offset`, linewrap.rs:696-722. -/
def setOffset (m : MergedBreaks) (offset : Nat) : Option MergedBreaks := do
  let t ← m.text.set offset
  let s ← m.soft.set offset
  let t ← backTo offset t linesMetric
  let s ← backTo offset s breaksMetric
  let (t, s) ← alignCursors t s
  let offset := min t.position s.position
  return { m with text := t, soft := s, offset := offset, curLine := ← mergedLineOfOffset t.root s.root offset }

/-- `Iterator::nth` of the standard library, on `MergedBreaks`. -/
def nth : Nat → MergedBreaks → Option (MergedBreaks × Option Nat)
  | 0, m => m.next
  | n + 1, m => do
    let (m, r) ← m.next
    if r.isNone then return (m, none) else nth n m

/-- `offset_of_line_linear`, linewrap.rs:736-740. -/
def offsetOfLineLinear (m : MergedBreaks) (line : Nat) : Option (MergedBreaks × Nat) :=
  if line ≤ m.curLine then none
  else do
    let (m, r) ← nth (line - m.curLine - 1) m
    return (m, r.getD m.len)

/-- The loop of `offset_of_line_bsearch`, linewrap.rs:744-754; `none` also when it
takes more than `fuel` rounds. -/
def bsearchLoop (line : Nat) : Nat → MergedBreaks → Nat → Nat → Option (MergedBreaks × Nat)
  | 0, _, _, _ => none
  | fuel + 1, m, start, stop => do
    let pivot := start + (stop - start) / 2
    let m ← m.setOffset pivot
    if m.curLine = line then return (m, m.offset)
    else if m.curLine > line then bsearchLoop line fuel m start pivot
    else if line - m.curLine > maxLinearDist then bsearchLoop line fuel m pivot stop
    else m.offsetOfLineLinear line

/-- `offset_of_line_bsearch`, linewrap.rs:742-755.  The fuel is shown to be enough
(see `C53_offset_of_line`). -/
def offsetOfLineBsearch (m : MergedBreaks) (line : Nat) : Option (MergedBreaks × Nat) :=
  bsearchLoop line (m.len + 1) m 0 m.len

/-- `offset_of_line`, linewrap.rs:724-734. -/
def offsetOfLine (m : MergedBreaks) (line : Nat) : Option (MergedBreaks × Nat) :=
  if line = 0 then some (m, 0)
  else if line ≥ m.totalLines then some (m, m.text.root.len)
  else if line = m.curLine then some (m, m.offset)
  else if line > m.curLine ∧ line - m.curLine < maxLinearDist then m.offsetOfLineLinear line
  else m.offsetOfLineBsearch line

end MergedBreaks

/-- `struct VisualLine`, linewrap.rs:73-78. -/
structure VisualLine where
  interval : Interval
  lineNum : Option Nat
deriving DecidableEq

/-- `struct VisualLines`, linewrap.rs:604-611. -/
structure VisualLines where
  cursor : MergedBreaks
  offset : Nat
  logicalLine : Nat
  len : Nat
  eof : Bool

namespace VisualLines

/-- The part of `VisualLines::next` after the bound is known, linewrap.rs:626-631. -/
def emit (v : VisualLines) (lineNum : Option Nat) (bound : Nat) : Option (VisualLines × Option VisualLine) := do
  let iv ← Interval.new v.offset bound
  let logical := if v.cursor.isHardBreak then v.logicalLine + 1 else v.logicalLine
  return ({ v with logicalLine := logical, offset := bound }, some ⟨iv, lineNum⟩)

/-- `VisualLines::next`, linewrap.rs:616-632. -/
def next (v : VisualLines) : Option (VisualLines × Option VisualLine) := do
  let lineNum := if v.cursor.isHardBreak then some v.logicalLine else none
  let (c, r) ← v.cursor.next
  match r with
  | some b => emit { v with cursor := c } lineNum b
  | none =>
    if v.eof then return ({ v with cursor := c }, none)
    else emit { v with cursor := c, eof := true } lineNum v.len

/-- All the lines that the iterator gives, in at most `fuel` calls. -/
def collect : Nat → VisualLines → Option (List VisualLine)
  | 0, _ => none
  | fuel + 1, v => do
    match ← v.next with
    | (_, none) => return []
    | (v, some l) => return l :: (← collect fuel v)

end VisualLines

/-- `Lines::visual_line_of_offset`, linewrap.rs:162-168; `wraps` says that
`self.wrap != WrapWidth::None`. -/
def visualLineOfOffset (wraps : Bool) (breaks : Breaks) (text : Rope) (offset : Nat) : Option Nat := do
  let line ← text.lineOfOffset offset
  if wraps then return line + (← breaks.count offset) else return line

/-- `Lines::offset_of_visual_line`, linewrap.rs:171-183. -/
def offsetOfVisualLine (wraps : Bool) (breaks : Breaks) (text : Rope) (line : Nat) : Option Nat :=
  if wraps then do
    let m ← MergedBreaks.new text breaks
    return (← m.offsetOfLine line).2
  else text.offsetOfLine (min line (text.measure linesMetric + 1))

/-- `Lines::iter_lines`, linewrap.rs:187-197. -/
def iterLines (breaks : Breaks) (text : Rope) (startLine : Nat) : Option VisualLines := do
  let m ← MergedBreaks.new text breaks
  let (m, offset) ← m.offsetOfLine startLine
  let logical := (← text.lineOfOffset offset) + 1
  let m ← m.setOffset offset
  return ⟨m, offset, logical, text.len, false⟩

end Xi
