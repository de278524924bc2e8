import Verif.Core.Selection
import Verif.Core.WordBoundaries
import Verif.Rope.Find

/-!
# Model of `rust/core-lib/src/find.rs`, and of the incremental search of `view.rs`

Regular expressions (the `regex` crate) are left out, and with them the iterator over lines,
which only they use; but the interval that is given to `lines_raw` is checked
(`Interval::new`, interval.rs:38-41) when debug assertions are on.
-/

namespace Xi

/-- `struct Find`, find.rs:58-79, without the identifier and the regular expression. -/
structure FindState where
  hlsDirty : Bool
  searchString : Option (List Char)
  caseMatching : CaseMatching
  wholeWords : Bool
  occurrences : Selection

namespace FindState

/-- `Find::new`, find.rs:82-92. -/
def new : FindState := ⟨true, none, .caseInsensitive, false, []⟩

/-- `unset`, find.rs:197-201. -/
def unset (h : FindState) : FindState := { h with searchString := none, occurrences := [], hlsDirty := true }

/-- Do the two settings agree?  `==` on `CaseMatching`, find.rs:221. -/
def sameCase : CaseMatching → CaseMatching → Bool
  | .exact, .exact => true
  | .caseInsensitive, .caseInsensitive => true
  | _, _ => false

/-- `set_find` without a regular expression, find.rs:205-247. -/
def setFind (h : FindState) (pat : List Char) (caseSensitive wholeWords : Bool) : FindState × Bool :=
  let h := if pat.isEmpty then h.unset else h
  let cm : CaseMatching := if caseSensitive then .exact else .caseInsensitive
  if h.searchString = some pat ∧ sameCase cm h.caseMatching = true ∧ h.wholeWords = wholeWords then (h, false)
  else ({ h.unset with searchString := some pat, caseMatching := cm, wholeWords := wholeWords }, true)

/-- `is_matching_whole_words`, find.rs:391-408; the subtraction is checked. -/
def isMatchingWholeWords (text : Rope) (start stop : Nat) : Option Bool := do
  if stop = 0 then none
  else
    let endCursor ← Cursor.new text (stop - 1)
    let startCursor ← Cursor.new text (start + 1)
    let (_, s) ← WordCursor.prevBoundary startCursor
    if s.any (· ≠ start) then return false
    else
      let (_, e) ← WordCursor.nextBoundary endCursor
      return !(e.any (· ≠ stop))

/-- `text.lines_raw(start..stop)` as far as it can panic: the assertion of `Interval::new`,
interval.rs:38-41. -/
def linesRaw (debug : Bool) (start stop : Nat) : Option Unit :=
  if debug = true ∧ ¬ start ≤ stop then none else some ()

/-- What happens to a match from `start` to the cursor, find.rs:281-315: the cursor from which
to go on, if at all, and the occurrences.  `whole` says whether only whole words count. -/
def takeMatch (text : Rope) (whole : Bool) (start : Nat) (cursor : RopeCursor) (occ : Selection) : Option (Option RopeCursor × Selection) := do
  let stop := cursor.position
  let reject ← if whole then (isMatchingWholeWords text start stop).map (!·) else some false
  if reject then return (some cursor, occ)
  else
    let (occ, _, e) ← occ.addRangeDistinct (.new start stop)
    if e ≠ stop then return (some (← cursor.set e), occ)
    else if start = stop then
      if stop + 1 ≥ text.len then return (none, occ) else return (some (← cursor.set (stop + 1)), occ)
    else return (some cursor, occ)

/-- The loop of `update_find`, find.rs:274-319; the first argument bounds the number of
rounds. -/
def findLoop (lower : CaseTable) (debug : Bool) (text : Rope) (cm : CaseMatching) (pat : List Char) (whole : Bool) (to : Nat) :
    Nat → RopeCursor → Selection → Option Selection
  | 0, _, _ => none
  | fuel + 1, cursor, occ => do
    let (cursor, r) ← Find.find lower cm pat cursor
    match r with
    | none => return occ
    | some start =>
      let (cursor, occ) ← takeMatch text whole start cursor occ
      match cursor with
      | none => return occ
      | some cursor =>
        linesRaw debug cursor.position to
        findLoop lower debug text cm pat whole to fuel cursor occ

/-- Where the search begins, and up to where it goes: `from` and `to`, find.rs:255-265. -/
def searchRange (text : Rope) (pat : List Char) (start stop : Nat) (includeSlop : Bool) : Option (Nat × Nat) := do
  let slop := if includeSlop then (pat.flatMap String.utf8EncodeChar).length * 2 else 0
  let expandedStart := max start slop - slop
  let expandedEnd := min (stop + slop) text.len
  let from' ← text.atOrPrevCodepointBoundary expandedStart
  let to ← text.atOrNextCodepointBoundary expandedEnd
  return (from'.getD 0, to.getD text.len)

/-- `update_find`, find.rs:250-320. -/
def updateFind (lower : CaseTable) (debug : Bool) (h : FindState) (text : Rope) (start stop : Nat) (includeSlop : Bool) : Option FindState :=
  match h.searchString with
  | none => some h
  | some pat => do
    let (from', to) ← searchRange text pat start stop includeSlop
    let toCursor ← Cursor.new text to
    let (toCursor, _) ← toCursor.nextLeaf
    let subText ← text.subseq ⟨0, toCursor.position⟩
    let findCursor ← Cursor.new subText from'
    linesRaw debug from' to
    let occ ← findLoop lower debug text h.caseMatching pat h.wholeWords to (text.len + 1) findCursor h.occurrences
    return { h with occurrences := occ, hlsDirty := true }

/-- The first loop of `update_highlights`, find.rs:142-144. -/
def deleteOld (occ : Selection) (delta : Delta UInt8) : Option Selection :=
  delta.iterDeletions.foldlM (fun occ r => occ.deleteRange r.oldOffset (r.oldOffset + r.len) false) occ

/-- The second loop of `update_highlights`, find.rs:149-157. -/
def deleteNew (occ : Selection) (delta : Delta UInt8) : Option Selection :=
  delta.iterInserts.foldlM (fun occ r => occ.deleteRange (r.newOffset - 1) (r.newOffset + r.len) false) occ

/-- The end of the line after `offset`, find.rs:177-183; `some none` is the early return. -/
def endOfLine (text : Rope) (offset : Nat) : Option (Option Nat) := do
  let cursor ← Cursor.new text offset
  let (cursor, r) ← cursor.next linesMetric
  match r with
  | some e => return some e
  | none => if cursor.position = text.len then return some cursor.position else return none

/-- Up to where `update_highlights` searches again, find.rs:168-184. -/
def redoTo (text : Rope) (pat : List Char) (offset : Nat) : Option (Option Nat) :=
  if (memchr newline (pat.flatMap String.utf8EncodeChar)).isSome then some (some text.len) else endOfLine text offset

/-- `update_highlights`, find.rs:138-189, on the new text. -/
def updateHighlights (lower : CaseTable) (debug : Bool) (h : FindState) (text : Rope) (delta : Delta UInt8) : Option FindState :=
  match h.searchString with
  | none => some h
  | some pat => do
    let occ ← deleteOld h.occurrences delta
    let occ ← occ.applyDelta delta false .default
    let occ ← deleteNew occ delta
    let ((ivStart, ivEnd), newLen) := delta.summary
    let regs ← occ.regionsInRange 0 ivStart
    let start := (regs.getLast?.map SelRegion.stop).getD 0
    match ← redoTo text pat (ivEnd + newLen) with
    | none => return { h with occurrences := occ }
    | some stop =>
      let occ ← occ.deleteRange ivStart stop false
      updateFind lower debug { h with occurrences := occ } text start stop false

/-- The part of the text `next_occurrence` looks for an occurrence beyond, find.rs:336-348. -/
def besideSelection (sel : Selection) : Nat × Nat :=
  match sel.getLast? with
  | some last => if last.isCaret then (last.lo, last.hi) else (last.lo, last.hi + 1)
  | none => (0, 0)

/-- The occurrences that are not selected, find.rs:356-366, 373-383. -/
def unselected (occ : Selection) (sel : Selection) (len : Nat) : Option (List SelRegion) := do
  let all ← occ.regionsInRange 0 len
  all.filterM fun o => do return (← sel.regionsInRange o.lo o.hi).isEmpty

/-- `next_occurrence`, find.rs:325-388. -/
def nextOccurrence (h : FindState) (text : Rope) (reverse wrapped : Bool) (sel : Selection) : Option (Option SelRegion) :=
  if h.occurrences.length = 0 then some none
  else
    let (selStart, selEnd) := besideSelection sel
    if reverse then do
      let next ← if selStart = 0 then some none else (h.occurrences.regionsInRange 0 (selStart - 1)).map List.getLast?
      if next.isNone ∧ wrapped = false then return (← unselected h.occurrences sel text.len).getLast?
      else return next
    else do
      let next ← (h.occurrences.regionsInRange selEnd text.len).map List.head?
      if next.isNone ∧ wrapped = false then return (← unselected h.occurrences sel text.len).head?
      else return next

end FindState

/-- `enum FindProgress`, view.rs:121-130. -/
inductive FindProgress where
  | ready
  | started
  | inProgress (start stop : Nat)
deriving DecidableEq

namespace FindProgress

/-- `FIND_BATCH_SIZE`, view.rs:47. -/
abbrev batchSize : Nat := 500000

/-- What `do_find` searches next, and how far it has then got, view.rs:1089-1136.  `visible` is
`offset_of_line(text, first_line)`, `len` the length of the text. -/
def nextRange (visible len : Nat) : FindProgress → FindProgress × Option (Nat × Nat)
  | .ready => (.ready, none)
  | .started =>
    let stop := min len (visible + batchSize)
    (.inProgress visible stop, some (visible, stop))
  | .inProgress start stop =>
    if start = 0 ∧ stop ≥ len then (.ready, some (0, len))
    else if (visible - start < stop - visible ∧ start > 0) ∨ stop ≥ len then
      (.inProgress (start - batchSize) stop, some (start - batchSize, start))
    else if stop < len then
      let stop' := min len (stop + batchSize)
      (.inProgress start stop', some (stop, stop'))
    else (.inProgress start stop, none)

/-- `do_find`, view.rs:1088-1150: the progress and the queries. -/
def doFind (lower : CaseTable) (debug : Bool) (text : Rope) (visible : Nat) (p : FindProgress) (queries : List FindState) :
    Option (FindProgress × List FindState) :=
  match nextRange visible text.len p with
  | (p, none) => some (p, queries)
  | (p, some (start, stop)) => do
    return (p, ← queries.mapM fun q => q.updateFind lower debug text start stop true)

end FindProgress

end Xi
