import Verif.Core.Find
import Verif.View.AfterEdit

/-!
# Model of how `rust/core-lib/src/view.rs` keeps its search queries

The queries themselves are those of `Core/Find.lean` (without regular expressions).
-/

namespace Xi

/-- `struct FindQuery`, rpc.rs:366-374, without `regex`. -/
structure SearchQuery where
  id : Option Nat
  chars : List Char
  caseSensitive : Bool
  wholeWords : Bool

/-- The parts of `struct View`, view.rs:79-94, that have to do with searching: the queries with their numbers
(find.rs:60), the counter for these, the progress, and whether highlights are shown. -/
structure ViewSearch where
  finds : List (Nat × FindState)
  counter : Nat
  progress : FindProgress
  visible : Bool

namespace ViewSearch

/-- In `View::new`, view.rs:176-180. -/
def new : ViewSearch := ⟨[], 0, .ready, false⟩

/-- `add_find`, view.rs:1044-1047, and `Counter::next`, tabs.rs:1042-1046. -/
def addFind (s : ViewSearch) : ViewSearch := { s with finds := s.finds ++ [(s.counter + 1, .new)], counter := s.counter + 1 }

/-- What is set for a query at `pos`, view.rs:1072-1080. -/
def setAt (s : ViewSearch) (pos : Nat) (q : SearchQuery) : Option (ViewSearch × Bool) := do
  let (id, f) ← s.finds[pos]?
  let (f, changed) := f.setFind q.chars q.caseSensitive q.wholeWords
  return ({ s with finds := s.finds.set pos (id, f) }, changed)

/-- The loop of `set_find`, view.rs:1057-1080; the second component is `none` after the early return, view.rs:1063. -/
def setLoop : List SearchQuery → ViewSearch → Bool → Option (ViewSearch × Option Bool)
  | [], s, changed => some (s, some changed)
  | q :: rest, s, changed =>
    match q.id with
    | some id =>
      match s.finds.findIdx? (fun f => f.1 == id) with
      | some pos => do
        let (s, c) ← s.setAt pos q
        setLoop rest s (changed || c)
      | none => some (s, none)
    | none => do
      let s := s.addFind
      let pos ← checkedSub s.finds.length 1
      let (s, c) ← s.setAt pos q
      setLoop rest s (changed || c)

/-- `set_find`, view.rs:1049-1086; the second component says whether `set_dirty` is called. -/
def setFind (s : ViewSearch) (queries : List SearchQuery) : Option (ViewSearch × Bool) := do
  let changed := decide (queries.length ≠ s.finds.length)
  let s := { s with finds := s.finds.filter fun f => queries.any fun q => q.id == some f.1 }
  let (s, changed) ← setLoop queries s changed
  match changed with
  | some true => return ({ s with progress := .started }, true)
  | some false => return (s, false)
  | none => return (s, false)

/-- What `Find` does, view.rs:260-264. -/
def find (s : ViewSearch) (chars : List Char) (caseSensitive wholeWords : Bool) : Option (ViewSearch × Bool) :=
  s.setFind [⟨s.finds.head?.map Prod.fst, chars, caseSensitive, wholeWords⟩]

/-- What `HighlightFind` does, view.rs:289-293. -/
def highlightFind (s : ViewSearch) (visible : Bool) : ViewSearch × Bool := ({ s with visible := visible }, true)

/-- What is selected, or the word at the cursor, view.rs:1017-1030, 1244-1257. -/
def selectedText (text : Rope) (sel : Selection) : Option (Option (List UInt8)) :=
  match sel.getLast? with
  | some region =>
    if region.isCaret = false then (text.sliceToCow (.range region.lo region.hi)).map some
    else do
      let (_, start, stop) ← WordCursor.selectWord (← Cursor.new text region.hi)
      (text.sliceToCow (.range start stop)).map some
  | none => some none

/-- `do_selection_for_find`, view.rs:1015-1042. -/
def selectionForFind (s : ViewSearch) (text : Rope) (sel : Selection) (caseSensitive : Bool) : Option (ViewSearch × Bool) := do
  match ← selectedText text sel with
  | none => return (s, false)
  | some str =>
    let s := if s.finds.length ≠ 1 then s.addFind else s
    let pos ← checkedSub s.finds.length 1
    let (s, _) ← s.setAt pos ⟨none, Find.chars str, caseSensitive, true⟩
    return ({ s with progress := .started }, true)

/-- `do_find`, view.rs:1088-1150, for all queries; `first` is where the window begins. -/
def doFind (lower : CaseTable) (debug : Bool) (s : ViewSearch) (text : Rope) (first : Nat) : Option ViewSearch := do
  let (p, qs) ← FindProgress.doFind lower debug text first s.progress (s.finds.map Prod.snd)
  return { s with progress := p, finds := (s.finds.map Prod.fst).zip qs }

/-- `find_in_progress`, view.rs:233-239. -/
def inProgress (s : ViewSearch) : Bool :=
  match s.progress with
  | .ready => false
  | _ => true

/-- What is done in `after_edit`, view.rs:1003-1007. -/
def afterEdit (lower : CaseTable) (debug : Bool) (s : ViewSearch) (text : Rope) (delta : Delta UInt8) : Option ViewSearch := do
  let finds ← s.finds.mapM fun f => do return (f.1, ← f.2.updateHighlights lower debug text delta)
  return { s with finds := finds }

/-- The highlights that are shown, view.rs:651-665. -/
def shown (s : ViewSearch) : List Selection := if s.visible then s.finds.map fun f => f.2.occurrences else []

end ViewSearch

end Xi
