import Verif.Unicode.LineBreak
import Verif.Core.Wrap
import Verif.Rope.Cursor

/-!
# Model of `rust/core-lib/src/linewrap.rs`: finding the breaks of a line

`LineBreakCursor` finds the places in a rope where a line may be broken, `RewrapCtx` chooses
among them by the widths of the words between.
-/

namespace Xi

open Unicode

/-- `struct LineBreakCursor`, linewrap.rs:566-570. -/
structure LineBreakCursor where
  inner : Cursor (List UInt8) RopeInfo
  lbIter : LineBreakLeafIter
  lastByte : UInt8

namespace LineBreakCursor

/-- `LineBreakCursor::new`, linewrap.rs:573-580. -/
def new (text : Rope) (pos : Nat) : Option LineBreakCursor := do
  let inner ← Cursor.new text pos
  match ← inner.getLeaf with
  | some (s, offset) => return ⟨inner, ← LineBreakLeafIter.new s offset, 0⟩
  | none => return ⟨inner, .default, 0⟩

/-- The loop of `next`, linewrap.rs:585-600; the first argument bounds the number of leaves. -/
def nextLoop : Nat → LineBreakCursor → Option (List UInt8 × Nat) → Option (LineBreakCursor × Nat × Bool)
  | 0, _, _ => none
  | _ + 1, c, none => some (c, c.inner.position, c.lastByte == newline)
  | fuel + 1, c, some (s, offset) => do
    let (it, next, hard) ← c.lbIter.next s (s.length + 1)
    if next < s.length then return (⟨c.inner, it, c.lastByte⟩, (← checkedSub c.inner.position offset) + next, hard)
    else do
      let (inner, leaf) ← c.inner.nextLeaf
      nextLoop fuel ⟨inner, it, s.getLast?.getD c.lastByte⟩ leaf

/-- `next`, linewrap.rs:583-601. -/
def next (c : LineBreakCursor) : Option (LineBreakCursor × Nat × Bool) := do
  nextLoop (c.inner.root.len + 2) c (← c.inner.getLeaf)

/-- All breaks up to the end of the text, as `refill_pot_breaks` asks for them
(linewrap.rs:515-516). -/
def collect (len : Nat) : Nat → LineBreakCursor → Option (List (Nat × Bool))
  | 0, _ => none
  | fuel + 1, c => do
    let (c, p, hard) ← c.next
    if p < len then return (p, hard) :: (← collect len fuel c) else return [(p, hard)]

end LineBreakCursor

/-- The arithmetic of widths, `f64` in the code: zero, addition, the comparisons `>=` and `>`
and `== 0.0`. -/
structure WidthOps (W : Type) where
  zero : W
  add : W → W → W
  ge : W → W → Bool
  gt : W → W → Bool
  isZero : W → Bool

/-- `struct PotentialBreak`, linewrap.rs:460-467.  Simplified: in place of the token there is
the width that the token stands for (see C40 for the cache of widths). -/
structure PotentialBreak (W : Type) where
  pos : Nat
  width : W
  hard : Bool

/-- `struct RewrapCtx`, linewrap.rs:470-480, without the cache of widths and the client: `measure`
gives the width of a word. -/
structure RewrapCtx (W : Type) where
  text : Rope
  lbCursor : LineBreakCursor
  lbCursorPos : Nat
  measure : List UInt8 → W
  potBreaks : List (PotentialBreak W)
  potBreakIx : Nat
  maxWidth : W

namespace RewrapCtx

variable {W : Type}

/-- `MAX_POT_BREAKS`, linewrap.rs:484. -/
abbrev maxPotBreaks : Nat := 10000

/-- `RewrapCtx::new`, linewrap.rs:487-507. -/
def new (text : Rope) (measure : List UInt8 → W) (maxWidth : W) (start : Nat) : Option (RewrapCtx W) := do
  return ⟨text, ← LineBreakCursor.new text start, start, measure, [], 0, maxWidth⟩

/-- `text.slice_to_cow(pos..next)`, linewrap.rs:517; `content` is the text of the rope. -/
def word (content : List UInt8) (pos next : Nat) : Option (List UInt8) :=
  if pos ≤ next ∧ next ≤ content.length then some ((content.take next).drop pos) else none

/-- The loop of `refill_pot_breaks`, linewrap.rs:515-521; the first argument is how many breaks
are still to be found at most. -/
def refillLoop (len : Nat) (content : List UInt8) (measure : List UInt8 → W) : Nat → LineBreakCursor → Nat → List (PotentialBreak W) →
    Option (LineBreakCursor × Nat × List (PotentialBreak W))
  | 0, c, pos, acc => some (c, pos, acc)
  | left + 1, c, pos, acc =>
    if pos < len then do
      let (c, next, hard) ← c.next
      let w ← word content pos next
      refillLoop len content measure left c next (acc ++ [⟨next, measure w, hard⟩])
    else some (c, pos, acc)

/-- `refill_pot_breaks`, linewrap.rs:509-524. -/
def refill (content : List UInt8) (ctx : RewrapCtx W) : Option (RewrapCtx W) := do
  let (c, pos, breaks) ← refillLoop ctx.text.len content ctx.measure maxPotBreaks ctx.lbCursor ctx.lbCursorPos []
  return { ctx with lbCursor := c, lbCursorPos := pos, potBreaks := breaks, potBreakIx := 0 }

/-- More breaks if all are used up, linewrap.rs:533-535. -/
def ensure (content : List UInt8) (ctx : RewrapCtx W) : Option (RewrapCtx W) :=
  if ctx.potBreaks.length ≤ ctx.potBreakIx then ctx.refill content else some ctx

/-- The loop of `wrap_one_line`, linewrap.rs:532-560; the first argument bounds the number of
words. -/
def wrapOneLoop (ops : WidthOps W) (content : List UInt8) : Nat → RewrapCtx W → W → Nat → Option (RewrapCtx W × Option Nat)
  | 0, _, _, _ => none
  | fuel + 1, ctx, lineWidth, pos =>
    if pos < ctx.text.len then do
      let ctx ← ctx.ensure content
      let b ← ctx.potBreaks[ctx.potBreakIx]?
      let step := { ctx with potBreakIx := ctx.potBreakIx + 1 }
      if b.hard = false then
        if ops.isZero lineWidth && ops.ge b.width ctx.maxWidth then
          if b.pos = ctx.text.len then return (ctx, none) else return (step, some b.pos)
        else if ops.gt (ops.add lineWidth b.width) ctx.maxWidth then return (ctx, some pos)
        else wrapOneLoop ops content fuel step (ops.add lineWidth b.width) b.pos
      else if !ops.isZero lineWidth && ops.gt (ops.add b.width lineWidth) ctx.maxWidth then return (ctx, some pos)
      else return (step, some b.pos)
    else some (ctx, none)

/-- `wrap_one_line`, linewrap.rs:529-563. -/
def wrapOneLine (ops : WidthOps W) (content : List UInt8) (ctx : RewrapCtx W) (start : Nat) : Option (RewrapCtx W × Option Nat) :=
  wrapOneLoop ops content (content.length + 1) ctx ops.zero start

end RewrapCtx

namespace LinesState

variable {W : Type}

/-- The loop of `do_wrap_task`, linewrap.rs:387-413, as `wrapLoop`, with the breaks found by
`RewrapCtx`. -/
def wrapLoopCtx (ops : WidthOps W) (text : Rope) (content : List UInt8) (stop batchSize : Nat) :
    Nat → RewrapCtx W → Nat → Nat → BreakBuilder → MergedBreaks → Option Nat → Option BreakBuilder
  | 0, _, _, _, _, _, _ => none
  | fuel + 1, ctx, pos, lines, builder, cursor, old => do
    match ← ctx.wrapOneLine ops content pos with
    | (ctx, some newNext) => do
      let (cursor, old) ← advanceOld newNext (content.length + 2) cursor old
      let hard := isHard cursor newNext
      let builder ← addLine builder hard (← checkedSub newNext pos)
      if newNext = stop ∨ (lines + 1 > batchSize ∧ hard = true) then return builder
      else wrapLoopCtx ops text content stop batchSize fuel ctx newNext (lines + 1) builder cursor old
    | (_, none) => do return builder.addNoBreak (← checkedSub text.len pos)

/-- `do_wrap_task`, linewrap.rs:348-431, with the breaks found by `RewrapCtx`. -/
def doWrapTaskCtx (ops : WidthOps W) (measure : List UInt8 → W) (maxWidth : W) (self : LinesState) (text : Rope) (content : List UInt8)
    (visStart visEnd : Nat) : Option (LinesState × WrapSummary) := do
  let (task, cursor) ← self.pickTask text visStart
  if self.wraps = false then none
  else
    let startLine := cursor.curLine
    let ctx ← RewrapCtx.new text measure maxWidth task.start
    let batchSize := max maxLinesPerBatch (← checkedSub visEnd visStart)
    let (cursor, old) ← cursor.next
    let builder ← wrapLoopCtx ops text content task.stop batchSize (content.length + 1) ctx task.start 0 .new cursor old
    self.putBreaks text task.start startLine (← builder.build)

/-- `rewrap_chunk`, linewrap.rs:267-282, with the breaks found by `RewrapCtx`. -/
def rewrapChunkCtx (ops : WidthOps W) (measure : List UInt8 → W) (maxWidth : W) (self : LinesState) (text : Rope) (content : List UInt8)
    (visStart visEnd : Nat) : Option (LinesState × Option InvalLines) :=
  if self.isConverged then some (self, none)
  else do
    let (self, s) ← self.doWrapTaskCtx ops measure maxWidth text content visStart visEnd
    return (self, some ⟨s.startLine, s.invalCount, s.newCount⟩)

/-- `after_edit`, linewrap.rs:286-346, with the breaks found by `RewrapCtx`. -/
def afterEditCtx (ops : WidthOps W) (measure : List UInt8 → W) (maxWidth : W) (self : LinesState) (text oldText : Rope) (content : List UInt8)
    (iv : Interval) (newLen visStart visEnd : Nat) : Option (LinesState × Option InvalLines) := do
  let logicalStartLine ← text.lineOfOffset iv.start
  let oldEndLine := (← oldText.lineOfOffset iv.stop) + 1
  let newEndLine := (← text.lineOfOffset (iv.start + newLen)) + 1
  let oldEndOffset ← oldText.offsetOfLine oldEndLine
  let oldHard ← checkedSub oldEndLine logicalStartLine
  let newHard ← checkedSub newEndLine logicalStartLine
  let prevBreak ← text.offsetOfLine logicalStartLine
  let nextHard ← text.offsetOfLine newEndLine
  let invalSoft ← checkedSub (← self.breaks.count oldEndOffset) (← self.breaks.count prevBreak)
  let breaks ← Node.edit self.breaks iv (← (BreakBuilder.new.addNoBreak newLen).build)
  let work ← WrapTasks.patchup self.work iv newLen
  let self := { self with breaks := breaks, work := work }
  if self.wraps = false then return (self, some ⟨logicalStartLine, oldHard, newHard⟩)
  else
    let self := { self with work := WrapTasks.add self.work (← Interval.new prevBreak nextHard) }
    if self.work.isEmpty = false then
      let (self, s) ← self.doWrapTaskCtx ops measure maxWidth text content visStart visEnd
      if self.isConverged then return (self, some ⟨s.startLine, oldHard + invalSoft, newHard + s.newSoft⟩)
      else return (self, none)
    else return (self, none)

end LinesState

end Xi
