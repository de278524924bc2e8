import Verif.Rope.Engine

/-!
# The undo history of an editor

Model of `rust/core-lib/src/editor.rs`, lines 50-307, 394-416 and 711-736, and of the calls in
`rust/core-lib/src/event_context.rs`, lines 112-207, 239, 268-352, 428-433, 470-475 and 517-525.

The sets `undos` and `gc_undos` are lists without duplicates.  Layers, views and the Fuchsia sync store are left out; so is the
computation of the deltas from the commands (see `EditOps.lean`).
-/

namespace Xi

/-- `EditType`, editor.rs:711-729. -/
inductive EditType where
  | other
  | insertChars
  | insertNewline
  | indent
  | delete
  | undo
  | redo
  | transpose
  | surround
deriving DecidableEq, Repr

/-- `EditType::breaks_undo_group`, editor.rs:733-735. -/
def EditType.breaksUndoGroup (t previous : EditType) : Bool := t == .other || t == .transpose || t != previous

/-- `MAX_UNDOS`, editor.rs:50. -/
def maxUndos : Nat := 20

/-- `Editor`, editor.rs:52-86; `collected` records the groups that were handed to `Engine::gc`. -/
structure Editor (α : Type) where
  text : List α
  engine : Engine α
  lastRevId : RevId
  pristineRevId : RevId
  undoGroupId : Nat
  liveUndos : List Nat
  curUndo : Nat
  undos : List Nat
  gcUndos : List Nat
  forceUndoGroup : Bool
  thisEditType : EditType
  lastEditType : EditType
  revsInFlight : Nat
  collected : List Nat

namespace Editor

variable {α : Type}

/-- `Editor::with_text`, editor.rs:95-121. -/
def withText (tok : RevId → Nat) (text : List α) : Option (Editor α) := do
  let engine ← Engine.new tok text
  let rev ← engine.getHeadRevId
  return ⟨engine.text, engine, rev, rev, 1, [0], 1, [], [], false, .other, .other, 0, []⟩

/-- `Editor::get_active_undo_group`, editor.rs:143-145. -/
def getActiveUndoGroup (e : Editor α) : Nat := e.liveUndos.getLast?.getD 0

/-- `Editor::update_edit_type`, editor.rs:147-150. -/
def updateEditType (e : Editor α) : Editor α := { e with lastEditType := e.thisEditType, thisEditType := .other }

/-- `Editor::set_pristine`, editor.rs:152-154. -/
def setPristine (e : Editor α) : Option (Editor α) := do
  return { e with pristineRevId := ← e.engine.getHeadRevId }

/-- `Editor::is_pristine`, editor.rs:156-158. -/
def isPristine (e : Editor α) : Option Bool := do
  e.engine.isEquivalentRevision e.pristineRevId (← e.engine.getHeadRevId)

/-- `Editor::set_force_undo_group`, editor.rs:165-168. -/
def setForceUndoGroup (e : Editor α) (force : Bool) : Editor α := { e with forceUndoGroup := force }

/-- `BTreeSet::extend`. -/
def extendSet (s xs : List Nat) : List Nat := xs.foldl (fun s x => if s.contains x then s else s ++ [x]) s

/-- The new group in `calculate_undo_group`, editor.rs:218-230; the slice panics if `cur_undo` is too large. -/
def openGroup (e : Editor α) : Option (Nat × Editor α) :=
  let g := e.undoGroupId
  if e.liveUndos.length < e.curUndo then none
  else
    let gcs := extendSet e.gcUndos (e.liveUndos.drop e.curUndo)
    let live := e.liveUndos.take e.curUndo ++ [g]
    if live.length ≤ maxUndos then
      some (g, { e with gcUndos := gcs, liveUndos := live, curUndo := e.curUndo + 1, undoGroupId := g + 1 })
    else some (g, { e with gcUndos := extendSet gcs (live.take 1), liveUndos := live.drop 1, undoGroupId := g + 1 })

/-- `Editor::calculate_undo_group`, editor.rs:210-230. -/
def calculateUndoGroup (e : Editor α) : Option (Nat × Editor α) :=
  match e.liveUndos.getLast? with
  | some g => if e.forceUndoGroup || !e.thisEditType.breaksUndoGroup e.lastEditType then some (g, e) else e.openGroup
  | none => e.openGroup

/-- `Editor::add_delta`, editor.rs:201-208. -/
def addDelta (tok : RevId → Nat) (e : Editor α) (delta : Delta α) : Option (Editor α) := do
  let head ← e.engine.getHeadRevId
  let (g, e) ← e.calculateUndoGroup
  let engine ← e.engine.editRev tok 0x10000 g (tok head) delta
  return { e with lastEditType := e.thisEditType, engine := engine, text := engine.text }

/-- The group of a plugin edit, editor.rs:238. -/
def pluginGroup (e : Editor α) (undoGroup : Option Nat) : Option (Nat × Editor α) :=
  match undoGroup with
  | some g => some (g, e)
  | none => e.calculateUndoGroup

/-- `Editor::apply_plugin_edit`, editor.rs:233-243. -/
def applyPluginEdit (tok : RevId → Nat) (e : Editor α) (rev priority : Nat) (undoGroup : Option Nat) (delta : Delta α) : Option (Editor α) := do
  let (g, e) ← e.pluginGroup undoGroup
  match ← e.engine.tryEditRev tok priority g rev delta with
  | .error _ => return e
  | .ok engine => return { e with engine := engine, text := engine.text }

/-- The head has moved since the last commit, editor.rs:252. -/
def changed (e : Editor α) : Option Bool := do return decide ((← e.engine.getHeadRevId) ≠ e.lastRevId)

/-- `Editor::commit_delta`, editor.rs:249-274: the delta and the old text, if something has changed.  Unknown revisions panic. -/
def commitDelta (tok : RevId → Nat) (e : Editor α) : Option (Editor α × Option (Delta α × List α)) := do
  if ← e.changed then
    match ← e.engine.tryDeltaRevHead tok (tok e.lastRevId) with
    | .error _ => none
    | .ok delta =>
      let last ← (← e.engine.getRev tok (tok e.lastRevId))
      return ({ e with lastRevId := ← e.engine.getHeadRevId }, some (delta, last))
  else return (e, none)

/-- `Editor::gc_undos`, editor.rs:284-290. -/
def runGc (e : Editor α) : Option (Editor α) :=
  if e.revsInFlight = 0 ∧ e.gcUndos ≠ [] then do
    let engine ← e.engine.gc e.gcUndos
    return { e with
      engine := engine
      undos := e.undos.filter (fun g => !e.gcUndos.contains g)
      gcUndos := []
      collected := e.collected ++ e.gcUndos }
  else some e

/-- `Editor::increment_revs_in_flight`, editor.rs:179-181. -/
def incrementRevsInFlight (e : Editor α) : Editor α := { e with revsInFlight := e.revsInFlight + 1 }

/-- `Editor::dec_revs_in_flight`, editor.rs:185-188; an underflow panics. -/
def decRevsInFlight (e : Editor α) : Option (Editor α) :=
  if e.revsInFlight = 0 then none else runGc { e with revsInFlight := e.revsInFlight - 1 }

/-- `Editor::update_undos`, editor.rs:407-410. -/
def updateUndos (e : Editor α) : Option (Editor α) := do
  let engine ← e.engine.undo e.undos
  return { e with engine := engine, text := engine.text }

/-- `Editor::do_undo`, editor.rs:389-396; a failing assertion panics. -/
def doUndo (e : Editor α) : Option (Editor α) :=
  if e.curUndo > 1 then do
    let g ← e.liveUndos[e.curUndo - 1]?
    if e.undos.contains g then none
    else updateUndos { e with curUndo := e.curUndo - 1, undos := e.undos ++ [g], thisEditType := .undo }
  else some e

/-- `Editor::do_redo`, editor.rs:398-405. -/
def doRedo (e : Editor α) : Option (Editor α) :=
  if e.curUndo < e.liveUndos.length then do
    let g ← e.liveUndos[e.curUndo]?
    if e.undos.contains g then
      updateUndos { e with curUndo := e.curUndo + 1, undos := e.undos.filter (fun x => x != g), thisEditType := .redo }
    else none
  else some e

/-- `Editor::reload`, editor.rs:172-176, with the delta from `LineHashDiff`. -/
def reload (tok : RevId → Nat) (e : Editor α) (delta : Delta α) : Option (Editor α) := do
  (← e.addDelta tok delta).setPristine

/-- `Editor::merge_new_state`, editor.rs:298-308. -/
def mergeNewState (tok : RevId → Nat) (e : Editor α) (other : Engine α) : Option (Editor α) := do
  let engine ← e.engine.merge other
  let top ← engine.maxUndoGroupId
  let e := { e with engine := engine, text := engine.text, undoGroupId := top + 1 }
  return (← e.commitDelta tok).1

/-- When the commands set the edit type, editor.rs:310-565: `before` the edit, `after` it, or neither. -/
structure CommandType where
  before : Option EditType
  after : Option EditType

/-- `self.this_edit_type = …`, editor.rs:310-565. -/
def setType (e : Editor α) : Option EditType → Editor α
  | some t => { e with thisEditType := t }
  | none => e

/-- A command with its delta, editor.rs:310-565; `none` if the command changes nothing. -/
def command (tok : RevId → Nat) (e : Editor α) (t : CommandType) (delta : Option (Delta α)) : Option (Editor α) :=
  match delta with
  | none => some e
  | some d => do return (← (e.setType t.before).addDelta tok d).setType t.after

/-- `update_plugins`, event_context.rs:313-352, for `n` plugins. -/
def updatePlugins (e : Editor α) (n : Nat) : Option (Editor α) := do
  let e : Editor α := { e with revsInFlight := e.revsInFlight + 1 + n }
  return (← e.decRevsInFlight).updateEditType

/-- `after_edit`, event_context.rs:273-296. -/
def afterEdit (tok : RevId → Nat) (e : Editor α) (n : Nat) : Option (Editor α) := do
  match ← e.commitDelta tok with
  | (_, none) => some e
  | (e, some _) => e.updatePlugins n

/-- An event of a recording: a command of the buffer or of the view, event_context.rs:136-154. -/
inductive Event (α : Type) where
  | buffer (t : CommandType) (delta : Option (Delta α))
  | undo
  | redo
  | view

/-- `dispatch_event`, event_context.rs:136-154. -/
def dispatch (tok : RevId → Nat) (e : Editor α) : Event α → Option (Editor α)
  | .buffer t d => e.command tok t d
  | .undo => e.doUndo
  | .redo => e.doRedo
  | .view => some e.updateEditType

/-- One event of a recording, event_context.rs:192-201. -/
def playStep (tok : RevId → Nat) (e : Editor α) (ev : Event α) : Option (Editor α) := do
  return (← (← e.dispatch tok ev).commitDelta tok).1

/-- `PlayRecording`, event_context.rs:181-209; `n` plugins. -/
def play (tok : RevId → Nat) (e : Editor α) (events : List (Event α)) (n : Nat) : Option (Editor α) := do
  let (_, e) ← e.updateEditType.calculateUndoGroup
  let e ← events.foldlM (playStep tok) (e.setForceUndoGroup true)
  (e.setForceUndoGroup false).updateEditType.updatePlugins n

/-- What happens to an editor. -/
inductive Input (α : Type) where
  /-- `do_edit`, event_context.rs:112-134 -/
  | event (ev : Event α)
  /-- `PlayRecording` -/
  | play (events : List (Event α))
  /-- a plugin's edit, event_context.rs:239 -/
  | plugin (rev priority : Nat) (undoGroup : Option Nat) (delta : Delta α)
  /-- `do_plugin_update`, event_context.rs:517-525 -/
  | ack
  /-- `after_save`, event_context.rs:428-435 -/
  | save
  /-- `reload`, event_context.rs:470-475 -/
  | reload (delta : Delta α)

/-- The reaction of the editor, with `n` plugins. -/
def input (tok : RevId → Nat) (n : Nat) (e : Editor α) : Input α → Option (Editor α)
  | .event ev => do (← e.dispatch tok ev).afterEdit tok n
  | .play events => do (← e.play tok events n).afterEdit tok n
  | .plugin rev priority g d => do (← e.applyPluginEdit tok rev priority g d).afterEdit tok n
  | .ack => e.decRevsInFlight
  | .save => e.setPristine
  | .reload d => do (← e.reload tok d).afterEdit tok n

end Editor

end Xi
