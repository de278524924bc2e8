import Verif.Core.VisualLines
import Verif.Core.WrapTasks

/-!
# Model of `rust/core-lib/src/linewrap.rs`: incremental word wrapping

Where a line is broken depends on Unicode tables (crate `xi-unicode`) and on widths
measured by the frontend.  Here a `WrapRule` stands for both: it says, for a logical
line and a place in it, where the next break is.
-/

namespace Xi

/-- Where the next break is: `rule s i` for the logical line `s` (with its newline)
and the place `i` in it. -/
abbrev WrapRule := List UInt8 → Nat → Option Nat

/-- The start of the logical line that `pos` is on. -/
def logicalStart (t : List UInt8) (pos : Nat) : Nat := pos - ((t.take pos).reverse.takeWhile (· != newline)).length

/-- The end of the logical line that `pos` is on, after its newline. -/
def logicalStop (t : List UInt8) (pos : Nat) : Nat :=
  match (t.drop pos).findIdx? (· == newline) with
  | some i => pos + i + 1
  | none => t.length

/-- `RewrapCtx::wrap_one_line`, linewrap.rs:529-563, by its contract: the next break
after the break `pos`, as the rule for the logical line says. -/
def wrapOneLine (rule : WrapRule) (t : List UInt8) (pos : Nat) : Option Nat :=
  (rule ((t.take (logicalStop t pos)).drop (logicalStart t pos)) (pos - logicalStart t pos)).map (logicalStart t pos + ·)

/-- `struct InvalLines`, linewrap.rs:88-92. -/
structure InvalLines where
  startLine : Nat
  invalCount : Nat
  newCount : Nat
deriving DecidableEq

/-- `struct WrapSummary`, linewrap.rs:99-107. -/
structure WrapSummary where
  startLine : Nat
  invalCount : Nat
  newCount : Nat
  newSoft : Nat

/-- `struct Lines`, linewrap.rs:66-71; `wraps` says that `wrap` is not
`WrapWidth::None`. -/
structure LinesState where
  breaks : Breaks
  wraps : Bool
  work : List Interval

/-- A subtraction on `usize`. -/
def checkedSub (a b : Nat) : Option Nat := if b ≤ a then some (a - b) else none

namespace LinesState

/-- `MAX_LINES_PER_BATCH`, linewrap.rs:359. -/
abbrev maxLinesPerBatch : Nat := 500

/-- `set_wrap_width`, linewrap.rs:110-118; `differs` is the result of
`differs_in_kind`. -/
def setWrapWidth (self : LinesState) (text : Rope) (wraps differs : Bool) : LinesState :=
  { breaks := if self.breaks.len = 0 ∨ differs = true then Breaks.newNoBreak text.len else self.breaks
    wraps := wraps
    work := WrapTasks.add [] ⟨0, text.len⟩ }

/-- `is_converged`, linewrap.rs:153-155. -/
def isConverged (self : LinesState) : Bool := self.wraps == false || self.work.isEmpty

/-- The `while let` loop of `do_wrap_task`, linewrap.rs:389-394. -/
def advanceOld (newNext : Nat) : Nat → MergedBreaks → Option Nat → Option (MergedBreaks × Option Nat)
  | 0, _, _ => none
  | _ + 1, cursor, none => some (cursor, none)
  | fuel + 1, cursor, some old =>
    if old ≥ newNext then some (cursor, some old)
    else do
      let (cursor, r) ← cursor.next
      advanceOld newNext fuel cursor r

/-- Is the new break a hard one?  linewrap.rs:396. -/
def isHard (cursor : MergedBreaks) (newNext : Nat) : Bool := cursor.offset == newNext && cursor.isHardBreak

/-- The builder after linewrap.rs:397-401. -/
def addLine (builder : BreakBuilder) (hard : Bool) (len : Nat) : Option BreakBuilder :=
  if hard then some (builder.addNoBreak len) else builder.addBreak len

/-- The loop of `do_wrap_task`, linewrap.rs:387-413. -/
def wrapLoop (rule : WrapRule) (text : Rope) (content : List UInt8) (stop batchSize : Nat) :
    Nat → Nat → Nat → BreakBuilder → MergedBreaks → Option Nat → Option BreakBuilder
  | 0, _, _, _, _, _ => none
  | fuel + 1, pos, lines, builder, cursor, old =>
    match wrapOneLine rule content pos with
    | some newNext => do
      let (cursor, old) ← advanceOld newNext (content.length + 2) cursor old
      let hard := isHard cursor newNext
      let builder ← addLine builder hard (← checkedSub newNext pos)
      if newNext = stop ∨ (lines + 1 > batchSize ∧ hard = true) then return builder
      else wrapLoop rule text content stop batchSize fuel newNext (lines + 1) builder cursor old
    | none => do return builder.addNoBreak (← checkedSub text.len pos)

/-- The task that `do_wrap_task` works on and the cursor at its start,
linewrap.rs:361-369. -/
def pickTask (self : LinesState) (text : Rope) (visStart : Nat) : Option (Interval × MergedBreaks) := do
  let cursor ← MergedBreaks.new text self.breaks
  let (cursor, visibleOff) ← cursor.offsetOfLine visStart
  let logicalOff ← text.offsetOfLine (← text.lineOfOffset visibleOff)
  let task ← (← WrapTasks.getNext self.work logicalOff)
  let cursor ← cursor.setOffset task.start
  if cursor.offset = task.start then return (task, cursor) else none

/-- The result of `do_wrap_task` once the new breaks are known, linewrap.rs:415-435. -/
def putBreaks (self : LinesState) (text : Rope) (start startLine : Nat) (breaks : Breaks) :
    Option (LinesState × WrapSummary) := do
  let stop := start + breaks.len
  let invalSoft ← checkedSub (← self.breaks.count stop) (← self.breaks.count start)
  let hardCount ← checkedSub (1 + (← text.lineOfOffset stop)) (← text.lineOfOffset start)
  let newSoft := breaks.measure breaksMetric
  let iv ← Interval.new start stop
  return ({ self with breaks := ← Node.edit self.breaks iv breaks, work := WrapTasks.afterWrap self.work iv },
    ⟨startLine, invalSoft + hardCount, newSoft + hardCount, newSoft⟩)

/-- `do_wrap_task`, linewrap.rs:348-431; `content` is the text of the rope.
`max_lines` is `None` outside of tests. -/
def doWrapTask (rule : WrapRule) (self : LinesState) (text : Rope) (content : List UInt8) (visStart visEnd : Nat) :
    Option (LinesState × WrapSummary) := do
  let (task, cursor) ← self.pickTask text visStart
  if self.wraps = false then none
  else
    let startLine := cursor.curLine
    let batchSize := max maxLinesPerBatch (← checkedSub visEnd visStart)
    let (cursor, old) ← cursor.next
    let builder ← wrapLoop rule text content task.stop batchSize (content.length + 1) task.start 0 .new cursor old
    self.putBreaks text task.start startLine (← builder.build)

/-- `rewrap_chunk`, linewrap.rs:267-282. -/
def rewrapChunk (rule : WrapRule) (self : LinesState) (text : Rope) (content : List UInt8) (visStart visEnd : Nat) :
    Option (LinesState × Option InvalLines) :=
  if self.isConverged then some (self, none)
  else do
    let (self, s) ← self.doWrapTask rule text content visStart visEnd
    return (self, some ⟨s.startLine, s.invalCount, s.newCount⟩)

/-- `after_edit`, linewrap.rs:286-346; `iv` and `newLen` are `delta.summary()`. -/
def afterEdit (rule : WrapRule) (self : LinesState) (text oldText : Rope) (content : List UInt8) (iv : Interval) (newLen visStart visEnd : Nat) :
    Option (LinesState × Option InvalLines) := do
  let logicalStartLine ← text.lineOfOffset iv.start
  let oldEndLine := (← oldText.lineOfOffset iv.stop) + 1
  let newEndLine := (← text.lineOfOffset (iv.start + newLen)) + 1
  let oldEndOffset ← oldText.offsetOfLine oldEndLine
  let oldHard ← checkedSub oldEndLine logicalStartLine
  let newHard ← checkedSub newEndLine logicalStartLine
  let prevBreak ← text.offsetOfLine logicalStartLine
  let nextHard ← text.offsetOfLine newEndLine
  let invalSoft ← checkedSub (← self.breaks.count oldEndOffset) (← self.breaks.count prevBreak)
  let breaks ← Node.edit self.breaks iv (← (BreakBuilder.new.addNoBreak newLen).build)
  let work ← WrapTasks.patchup self.work iv newLen
  let self := { self with breaks := breaks, work := work }
  if self.wraps = false then return (self, some ⟨logicalStartLine, oldHard, newHard⟩)
  else
    let self := { self with work := WrapTasks.add self.work (← Interval.new prevBreak nextHard) }
    if self.work.isEmpty = false then
      let (self, s) ← self.doWrapTask rule text content visStart visEnd
      if self.isConverged then return (self, some ⟨s.startLine, oldHard + invalSoft, newHard + s.newSoft⟩)
      else return (self, none)
    else return (self, none)

end LinesState

end Xi
