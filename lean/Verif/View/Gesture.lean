import Verif.Core.Movement
import Verif.Core.LineCache

/-!
# Model of the selection of a view, `rust/core-lib/src/view.rs`

What a view does when the user moves the cursor, clicks, drags or scrolls.  The selection, the
drag state and the scroll position are modelled; of the line cache, the calls of
`partial_invalidate` are recorded.  How the text is wrapped does not change meanwhile
(`Wrapping`).  Numbers are natural numbers: a subtraction that underflows is a panic.
-/

namespace Xi.Gesture

/-- `enum SelectionGranularity`, rpc.rs:290-297. -/
inductive Granularity where
  | point
  | word
  | line
deriving DecidableEq

/-- `enum GestureType`, rpc.rs:302-315. -/
inductive GestureType where
  | select (granularity : Granularity) (multi : Bool)
  | selectExtend (granularity : Granularity)
  | drag
  | pointSelect
  | toggleSel
  | rangeSelect
  | lineSelect
  | wordSelect
  | multiLineSelect
  | multiWordSelect
deriving DecidableEq

/-- The translation of deprecated gestures, edit_types.rs:229-259. -/
def GestureType.translate : GestureType → GestureType
  | .pointSelect => .select .point false
  | .toggleSel => .select .point true
  | .wordSelect => .select .word false
  | .multiWordSelect => .select .word true
  | .lineSelect => .select .line false
  | .multiLineSelect => .select .line true
  | .rangeSelect => .selectExtend .point
  | ty => ty

/-- What `Lines` knows, linewrap.rs:66-71: whether there is wrapping, and the soft breaks. -/
structure Wrapping where
  wraps : Bool
  breaks : Breaks

namespace Wrapping

/-- `impl LineOffset for View`, view.rs:1290-1298. -/
def lines (ls : Wrapping) : LineOffset := .visualLines ls.wraps ls.breaks

/-- `Lines::logical_line_range`, linewrap.rs:433-440. -/
def logicalLineRange (ls : Wrapping) (text : Rope) (line : Nat) : Option (Nat × Nat) := do
  let m ← MergedBreaks.new text ls.breaks
  let (_, offset) ← m.offsetOfLine line
  let logical ← text.lineOfOffset offset
  let start ← text.offsetOfLine logical
  let stop ← text.offsetOfLine (logical + 1)
  return (start, stop)

end Wrapping

/-- `struct DragState`, view.rs:148-160. -/
structure DragState where
  base : Selection
  min : Nat
  max : Nat
  granularity : Granularity
deriving DecidableEq

/-- The part of `struct View` (view.rs:52-104) that is modelled; `inval` are the calls of
`lc_shadow.partial_invalidate` so far. -/
structure View where
  selection : Selection
  drag : Option DragState
  firstLine : Nat
  height : Nat
  scrollTo : Option Nat
  inval : List (Nat × Nat × Validity)
deriving DecidableEq

namespace View

/-- `View::new`, view.rs:163-185. -/
def new : View := ⟨[.caret 0], none, 0, 10, some 0, []⟩

/-- `set_scroll`, view.rs:329-334. -/
def setScroll (v : View) (first last : Int) : Option View :=
  let first := (max first 0).toNat
  let last := (max last 0).toNat
  if first ≤ last then some { v with firstLine := first, height := last - first } else none

/-- The first line on the screen once `line` is there too, view.rs:343-347. -/
def scrolled (firstLine height line : Nat) : Option Nat :=
  if line < firstLine then some line
  else if firstLine + height ≤ line then
    if height = 0 then none else some (line - (height - 1))
  else some firstLine

/-- `scroll_to_cursor`, view.rs:340-352. -/
def scrollToCursor (ls : Wrapping) (text : Rope) (v : View) : Option View := do
  let last ← v.selection.getLast?
  let line ← ls.lines.lineOfOffset text last.stop
  let first ← scrolled v.firstLine v.height line
  return { v with firstLine := first, scrollTo := some last.stop }

/-- What `invalidate_selection` invalidates, view.rs:408-413. -/
def invalidity (s : Selection) : Validity := if s.all SelRegion.isCaret then ⟨false, false, true⟩ else ⟨false, true, true⟩

/-- `invalidate_selection`, view.rs:404-415. -/
def invalidateSelection (ls : Wrapping) (text : Rope) (v : View) : Option View := do
  let first ← v.selection.head?
  let firstLine ← ls.lines.lineOfOffset text first.lo
  let last ← v.selection.getLast?
  let lastLine ← ls.lines.lineOfOffset text last.hi
  return { v with inval := v.inval ++ [(firstLine, lastLine + 1, invalidity v.selection)] }

/-- `set_selection_raw`, view.rs:395-399. -/
def setSelectionRaw (ls : Wrapping) (text : Rope) (v : View) (sel : Selection) : Option View := do
  let v ← v.invalidateSelection ls text
  invalidateSelection ls text { v with selection := sel }

/-- `set_selection`, view.rs:382-385. -/
def setSelection (ls : Wrapping) (text : Rope) (v : View) (sel : Selection) : Option View := do
  (← v.setSelectionRaw ls text sel).scrollToCursor ls text

/-- `set_selection_for_edit`, view.rs:388-391. -/
def setSelectionForEdit (ls : Wrapping) (text : Rope) (v : View) (sel : Selection) : Option View :=
  scrollToCursor ls text { v with selection := sel }

/-- `deselect_at_offset`, view.rs:356-367. -/
def deselectAtOffset (ls : Wrapping) (text : Rope) (v : View) (offset : Nat) : Option (View × Bool) := do
  if (← v.selection.regionsInRange offset offset).isEmpty then return (v, false)
  else
    let sel ← v.selection.deleteRange offset offset true
    if sel.isEmpty then return (v, false)
    else return (← setSelectionRaw ls text { v with drag := none } sel, true)

/-- `do_move`, view.rs:374-379. -/
def doMove (g : Graphemes) (ls : Wrapping) (text : Rope) (v : View) (m : Movement) (modify : Bool) : Option View := do
  let sel ← Movement.selectionMovement g m v.selection ls.lines v.height text modify
  setSelection ls text { v with drag := none } sel

/-- A step of the loop of `add_selection_by_movement`, view.rs:419-424. -/
def addMoved (g : Graphemes) (ls : Wrapping) (text : Rope) (height : Nat) (m : Movement) (sel : Selection) (region : SelRegion) : Option Selection := do
  let sel ← sel.addRegion region
  sel.addRegion (← Movement.regionMovement g m region ls.lines height text false)

/-- `add_selection_by_movement`, view.rs:417-426. -/
def addSelectionByMovement (g : Graphemes) (ls : Wrapping) (text : Rope) (v : View) (m : Movement) : Option View := do
  let sel ← v.selection.foldlM (addMoved g ls text v.height m) []
  v.setSelection ls text sel

/-- `select_all`, view.rs:450-453. -/
def selectAll (ls : Wrapping) (text : Rope) (v : View) : Option View := v.setSelectionRaw ls text [.new 0 text.len]

/-- `unit`, view.rs:456-470. -/
def unit (ls : Wrapping) (text : Rope) (offset : Nat) : Granularity → Option Interval
  | .point => Interval.new offset offset
  | .word => do
    let (_, start, stop) ← WordCursor.selectWord (← Cursor.new text offset)
    Interval.new start stop
  | .line => do
    let (line, _) ← ls.lines.offsetToLineCol text offset
    let (start, stop) ← ls.logicalLineRange text line
    Interval.new start stop

/-- `select` from view.rs:488 on. -/
def selectUnit (ls : Wrapping) (text : Rope) (v : View) (offset : Nat) (granularity : Granularity) (multi : Bool) : Option View := do
  let iv ← unit ls text offset granularity
  let base := if multi then v.selection else []
  let v ← v.setSelection ls text (← base.addRegion (.new iv.start iv.stop))
  return { v with drag := some ⟨base, iv.start, iv.stop, granularity⟩ }

/-- `select`, view.rs:473-500. -/
def select (ls : Wrapping) (text : Rope) (v : View) (offset : Nat) (granularity : Granularity) (multi : Bool) : Option View := do
  if multi ∧ granularity = .point then
    let (v', removed) ← v.deselectAtOffset ls text offset
    if removed then return v' else v'.selectUnit ls text offset granularity multi
  else v.selectUnit ls text offset granularity multi

/-- `range_region`, view.rs:580-595. -/
def rangeRegion (ls : Wrapping) (text : Rope) (minStart maxStart offset : Nat) (granularity : Granularity) : Option SelRegion := do
  let stop ← unit ls text offset granularity
  return if offset ≥ minStart then .new minStart stop.stop else .new maxStart stop.start

/-- `extend_selection`, view.rs:503-534. -/
def extendSelection (ls : Wrapping) (text : Rope) (v : View) (offset : Nat) (granularity : Granularity) : Option View :=
  match v.selection.getLast? with
  | none => some v
  | some last => do
    let base ← v.selection.dropLast.foldlM Selection.addRegion ([] : Selection)
    let region ← rangeRegion ls text last.start last.start offset granularity
    setSelection ls text { v with drag := some ⟨base, last.start, last.start, granularity⟩ } (← base.addRegion region)

/-- The end of a piece in `do_split_selection_into_lines`, view.rs:548-553: `next` is what the
cursor returned, `pos` where it is; `none` is the `break`.  (Neither subtraction underflows.) -/
def splitEnd (len hi : Nat) (next : Option Nat) (pos : Nat) : Option Nat :=
  match next with
  | some e => if e ≥ hi then some (hi - 1) else some (e - 1)
  | none => if pos = len then some pos else none

/-- The loop of `do_split_selection_into_lines`, view.rs:546-557.  (That the fuel is enough is
shown.) -/
def splitLoop (text : Rope) (hi : Nat) : Nat → Cursor (List UInt8) RopeInfo → Selection → Option Selection
  | 0, _, _ => none
  | fuel + 1, cursor, sel =>
    if cursor.position < hi then do
      let (cursor', next) ← cursor.next linesMetric
      match splitEnd text.len hi next cursor'.position with
      | none => return sel
      | some stop => splitLoop text hi fuel cursor' (← sel.addRegion (.new cursor.position stop))
    else some sel

/-- The pieces of one region, view.rs:541-559. -/
def splitRegion (text : Rope) (sel : Selection) (region : SelRegion) : Option Selection :=
  if region.isCaret then sel.addRegion (.caret region.hi)
  else do splitLoop text region.hi (text.len + 1) (← Cursor.new text region.lo) sel

/-- `do_split_selection_into_lines`, view.rs:537-561. -/
def splitIntoLines (ls : Wrapping) (text : Rope) (v : View) : Option View := do
  v.setSelectionRaw ls text (← v.selection.foldlM (splitRegion text) [])

/-- `do_drag`, view.rs:565-577, with the default affinity (view.rs:312). -/
def doDrag (ls : Wrapping) (text : Rope) (v : View) (offset : Nat) : Option View :=
  match v.drag with
  | none => some v
  | some d => do
    let region ← rangeRegion ls text d.min d.max offset d.granularity
    v.setSelection ls text (← d.base.addRegion ⟨region.start, region.stop, none, false⟩)

/-- `collapse_selections`, view.rs:603-607. -/
def collapseSelections (ls : Wrapping) (text : Rope) (v : View) : Option View := do v.setSelection ls text (← v.selection.collapse)

/-- `goto_line`, view.rs:320-323. -/
def gotoLine (g : Graphemes) (ls : Wrapping) (text : Rope) (v : View) (line : Nat) : Option View := do
  v.setSelection ls text [.caret (← ls.lines.lineColToOffset g text line 0)]

/-- `do_gesture`, view.rs:301-318. -/
def doGesture (g : Graphemes) (ls : Wrapping) (text : Rope) (v : View) (line col : Nat) (ty : GestureType) : Option View := do
  let offset ← ls.lines.lineColToOffset g text line col
  match ty with
  | .select granularity multi => v.select ls text offset granularity multi
  | .selectExtend granularity => v.extendSelection ls text offset granularity
  | .drag => v.doDrag ls text offset
  | _ => return v

/-- The gesture of a legacy click, view.rs:269-288; bit 1 of the flags is `FLAG_SELECT`. -/
def clickGesture (flags : Nat) (clickCount : Option Nat) : GestureType :=
  if flags &&& 2 ≠ 0 then .selectExtend .point
  else if clickCount = some 2 then .wordSelect
  else if clickCount = some 3 then .lineSelect
  else .pointSelect

end View

/-- The part of `enum ViewEvent` (edit_types.rs:30-52) that is modelled. -/
inductive Event where
  | move (m : Movement)
  | modifySelection (m : Movement)
  | selectAll
  | scroll (first last : Int)
  | addSelectionAbove
  | addSelectionBelow
  | gesture (line col : Nat) (ty : GestureType)
  | gotoLine (line : Nat)
  | click (line col flags : Nat) (clickCount : Option Nat)
  | drag (line col : Nat)
  | collapseSelections
  | selectionIntoLines
deriving DecidableEq

/-- `do_edit`, view.rs:240-299. -/
def View.doEdit (g : Graphemes) (ls : Wrapping) (text : Rope) (v : View) : Event → Option View
  | .move m => v.doMove g ls text m false
  | .modifySelection m => v.doMove g ls text m true
  | .selectAll => v.selectAll ls text
  | .scroll first last => v.setScroll first last
  | .addSelectionAbove => v.addSelectionByMovement g ls text .upExactPosition
  | .addSelectionBelow => v.addSelectionByMovement g ls text .downExactPosition
  | .gesture line col ty => v.doGesture g ls text line col ty
  | .gotoLine line => v.gotoLine g ls text line
  | .click line col flags clickCount => v.doGesture g ls text line col (clickGesture flags clickCount)
  | .drag line col => v.doGesture g ls text line col .drag
  | .collapseSelections => v.collapseSelections ls text
  | .selectionIntoLines => v.splitIntoLines ls text

/-- The events of a front end come through `EditNotification`, edit_types.rs:225-261: gestures are
translated. -/
def Event.translate : Event → Event
  | .gesture line col ty => .gesture line col ty.translate
  | e => e

end Xi.Gesture
