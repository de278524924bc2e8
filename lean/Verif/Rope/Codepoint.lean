import Verif.Rope.Rope
import Verif.Rope.Cursor
import Verif.Spec.Cursor

/-!
# Model of `rust/rope/src/rope.rs`: moving by codepoints

The functions on graphemes (rope.rs:439-447, 675-730) are not modelled: they
depend on the crate `unicode-segmentation`.
-/

namespace Xi

namespace Rope

/-- `Rope::is_codepoint_boundary`, rope.rs:402-405. -/
def isCodepointBoundary (r : Rope) (offset : Nat) : Option Bool := do
  return (← (← Cursor.new r offset).isBoundary baseMetric).2

/-- `Rope::prev_codepoint_offset`, rope.rs:408-411. -/
def prevCodepointOffset (r : Rope) (offset : Nat) : Option (Option Nat) := do
  return (← (← Cursor.new r offset).prev baseMetric).2

/-- `Rope::next_codepoint_offset`, rope.rs:414-417. -/
def nextCodepointOffset (r : Rope) (offset : Nat) : Option (Option Nat) := do
  return (← (← Cursor.new r offset).next baseMetric).2

/-- `Rope::at_or_next_codepoint_boundary`, rope.rs:421-427. -/
def atOrNextCodepointBoundary (r : Rope) (offset : Nat) : Option (Option Nat) := do
  if ← r.isCodepointBoundary offset then return some offset else r.nextCodepointOffset offset

/-- `Rope::at_or_prev_codepoint_boundary`, rope.rs:431-437. -/
def atOrPrevCodepointBoundary (r : Rope) (offset : Nat) : Option (Option Nat) := do
  if ← r.isCodepointBoundary offset then return some offset else r.prevCodepointOffset offset

end Rope

/-- `s.chars().next()` on a well-formed string. -/
def firstChar (s : List UInt8) : Option Char := ByteArray.utf8DecodeChar? ⟨s.toArray⟩ 0

namespace Cursor

/-- `l[offset..].chars().next()`, which panics if `offset` is inside a character. -/
def charAt (l : List UInt8) (offset : Nat) : Option (Option Char) := do
  return firstChar (← strSlice l offset l.length)

/-- `Cursor::prev_codepoint`, rope.rs:650-657. -/
def prevCodepoint (c : Cursor (List UInt8) RopeInfo) : Option (Cursor (List UInt8) RopeInfo × Option Char) := do
  let (c, _) ← c.prev baseMetric
  match ← c.getLeaf with
  | some (l, offset) => return (c, ← charAt l offset)
  | none => return (c, none)

/-- `Cursor::next_codepoint`, rope.rs:660-667. -/
def nextCodepoint (c : Cursor (List UInt8) RopeInfo) : Option (Cursor (List UInt8) RopeInfo × Option Char) := do
  match ← c.getLeaf with
  | some (l, offset) =>
    let (c, _) ← c.next baseMetric
    return (c, ← charAt l offset)
  | none => return (c, none)

/-- `Cursor::peek_next_codepoint`, rope.rs:671-673. -/
def peekNextCodepoint (c : Cursor (List UInt8) RopeInfo) : Option (Option Char) := do
  match ← c.getLeaf with
  | some (l, offset) => charAt l offset
  | none => return none

/-- The metric a type parameter stands for. -/
def metricOf : RopeMetric → Metric (List UInt8) RopeInfo
  | .base => baseMetric
  | .lines => linesMetric
  | .utf16 => utf16Metric

/-- A call of a method of the cursor. -/
def call (c : Cursor (List UInt8) RopeInfo) : CursorCall → Option (Cursor (List UInt8) RopeInfo × CursorReply)
  | .set p => do return (← c.set p, .done)
  | .isBoundary m => do let (c, b) ← c.isBoundary (metricOf m); return (c, .flag b)
  | .prev m => do let (c, r) ← c.prev (metricOf m); return (c, .place r)
  | .next m => do let (c, r) ← c.next (metricOf m); return (c, .place r)
  | .atOrPrev m => do let (c, r) ← c.atOrPrev (metricOf m); return (c, .place r)
  | .atOrNext m => do let (c, r) ← c.atOrNext (metricOf m); return (c, .place r)
  | .prevCodepoint => do let (c, r) ← c.prevCodepoint; return (c, .char r)
  | .nextCodepoint => do let (c, r) ← c.nextCodepoint; return (c, .char r)
  | .peekNextCodepoint => do return (c, .char (← c.peekNextCodepoint))

/-- A sequence of calls on one cursor: what they return. -/
def calls (c : Cursor (List UInt8) RopeInfo) : List CursorCall → Option (List CursorReply)
  | [] => some []
  | x :: xs => do
    let (c, r) ← c.call x
    return r :: (← c.calls xs)

end Cursor

end Xi
