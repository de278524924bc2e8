import Verif.Core.Find

/-!
# Model of "find next" in `rust/core-lib/src/view.rs`
-/

namespace Xi

/-- `enum SelectionModifier`, rpc.rs:351-356. -/
inductive SelectionModifier where
  | none
  | set
  | add
  | addRemovingCurrent

namespace FindState

/-- How far an occurrence is from the selection, view.rs:1203-1208; the subtractions are
checked. -/
def distance (reverse : Bool) (len curStart curEnd : Nat) (x : SelRegion) : Option Nat :=
  if reverse then
    if x.stop > curEnd then (if x.stop ≤ 2 * len then some (2 * len - x.stop) else Option.none) else some (curEnd - x.stop)
  else some (if x.start < curStart then x.start + len else x.start - curStart)

/-- `min_by_key`: the first of those with the least key. -/
def closest (key : SelRegion → Option Nat) : List SelRegion → Option (Option SelRegion)
  | [] => some Option.none
  | x :: rest => do
    let k ← key x
    match ← closest key rest with
    | Option.none => return some x
    | some y => return some (if (← key y) < k then y else x)

/-- The selection without its last region, unless that is a caret, view.rs:1219-1229. -/
def withoutLast (sel : Selection) : Option Selection :=
  match sel.getLast? with
  | some last => if last.isCaret then some sel else sel.deleteRange last.lo last.hi false
  | Option.none => some sel

/-- What is done with the occurrence, view.rs:1211-1235; `none` in the result: the selection is
not set. -/
def modifySelection (sel : Selection) (occ : SelRegion) : SelectionModifier → Option (Option Selection)
  | .none => some Option.none
  | .set => some (some [occ])
  | .add => (sel.addRegion occ).map some
  | .addRemovingCurrent => do
    return some (← (← withoutLast sel).addRegion occ)

/-- Where the last selection begins and ends, view.rs:1193-1196. -/
def lastEnds (sel : Selection) : Nat × Nat :=
  match sel.getLast? with
  | some last => (last.lo, last.hi)
  | Option.none => (0, 0)

/-- `select_next_occurrence`, view.rs:1185-1237: the new selection, if it is set. -/
def selectNext (queries : List FindState) (text : Rope) (reverse wrapped : Bool) (modify : SelectionModifier) (sel : Selection) : Option (Option Selection) := do
  let found ← queries.mapM fun q => q.nextOccurrence text reverse wrapped sel
  match ← closest (distance reverse text.len (lastEnds sel).1 (lastEnds sel).2) (found.filterMap id) with
  | some occ => modifySelection sel occ modify
  | Option.none => return Option.none

/-- `do_find_next`, view.rs:1153-1165: the selection.  `noScroll` is `scroll_to.is_none()`;
setting the selection asks for scrolling (`scroll_to_cursor`, view.rs:340-352). -/
def doFindNext (queries : List FindState) (text : Rope) (noScroll reverse wrap : Bool) (modify : SelectionModifier) (sel : Selection) : Option Selection := do
  match ← selectNext queries text reverse false modify sel with
  | some sel => return sel
  | Option.none =>
    if noScroll ∧ wrap then return (← selectNext queries text reverse true modify sel).getD sel else return sel

/-- `do_find_all`, view.rs:1168-1180: the selection. -/
def doFindAll (queries : List FindState) (sel : Selection) : Option Selection := do
  let s ← (queries.flatMap FindState.occurrences).foldlM (fun s o => Selection.addRegion s o) []
  return if s.isEmpty then sel else s

end FindState

end Xi
