/-!
# Model of `rust/core-lib/src/recorder.rs`
-/

namespace Xi

/-- The events that can be recorded (`EventDomain`, edit_types.rs:113-117).  Buffer events
other than insertion, undo and redo are only told apart by a number, and so are the view
events; special events are never recorded (event_context.rs:119-122). -/
inductive RecEvent where
  | insert (chars : String)
  | undo
  | redo
  | buffer (k : Nat)
  | view (k : Nat)
  deriving DecidableEq, Repr

/-- `struct Recorder`, recorder.rs:26-30.  The hash map is a function. -/
structure Recorder where
  active : Option String
  buffer : List RecEvent
  recordings : String → Option (List RecEvent)

namespace Recorder

/-- `new`, recorder.rs:33-39. -/
def new : Recorder := ⟨none, [], fun _ => none⟩

/-- The closure of the filter in `save_recording_buffer`, recorder.rs:149-172: given
`saw_undo` and `saw_redo`, whether to keep the event and the new values. -/
def keep (sawUndo sawRedo : Bool) : RecEvent → Bool × Bool × Bool
  | .undo => (false, !sawRedo, false)
  | .redo => (false, false, !sawUndo)
  | .view _ => (true, sawUndo, sawRedo)
  | .insert _ => (!sawUndo, false, false)
  | .buffer _ => (!sawUndo, false, false)

/-- The stateful filter over the reversed buffer, recorder.rs:147-176. -/
def filterRev (sawUndo sawRedo : Bool) : List RecEvent → List RecEvent
  | [] => []
  | e :: r =>
    let (k, u, d) := keep sawUndo sawRedo e
    if k then e :: filterRev u d r else filterRev u d r

/-- The recording made of a buffer, recorder.rs:140-181. -/
def clean (buffer : List RecEvent) : List RecEvent := (filterRev false false buffer.reverse).reverse

/-- `save_recording_buffer`, recorder.rs:139-181. -/
def saveBuffer (r : Recorder) (name : String) : Recorder :=
  ⟨r.active, [], fun n => if n = name then some (clean r.buffer) else r.recordings n⟩

/-- `toggle_recording`, recorder.rs:57-77. -/
def toggle (r : Recorder) (name : Option String) : Recorder :=
  let last := r.active
  let r : Recorder := ⟨none, r.buffer, r.recordings⟩
  match last, name with
  | some l, none => ⟨none, (r.saveBuffer l).buffer, (r.saveBuffer l).recordings⟩
  | some l, some n => if l ≠ n then ⟨some n, [], r.recordings⟩ else r.saveBuffer l
  | none, n => ⟨n, r.buffer, r.recordings⟩

/-- Adding one event to the buffer, recorder.rs:87-106. -/
def push (buffer : List RecEvent) (e : RecEvent) : List RecEvent :=
  match buffer.getLast?, e with
  | some (.insert old), .insert new => buffer.dropLast ++ [.insert (old ++ new)]
  | _, e => buffer ++ [e]

/-- `record`, recorder.rs:83-106; `none` if the assertion fails. -/
def record (r : Recorder) (e : RecEvent) : Option Recorder :=
  if r.active.isSome then some ⟨r.active, push r.buffer e, r.recordings⟩ else none

/-- `play`, recorder.rs:110-127: the events that the action is run on. -/
def play (r : Recorder) (name : String) : List RecEvent :=
  if r.active = some name then [] else (r.recordings name).getD []

/-- `clear`, recorder.rs:130-132. -/
def clear (r : Recorder) (name : String) : Recorder :=
  ⟨r.active, r.buffer, fun n => if n = name then none else r.recordings n⟩

/-- The commands as far as they concern recording. -/
inductive Cmd where
  | toggle (name : Option String)
  | clear (name : String)
  | special
  | event (e : RecEvent)

/-- What `do_edit` does to the recorder, event_context.rs:112-128, together with
`ClearRecording`, event_context.rs:210-213. -/
def step (r : Recorder) : Cmd → Option Recorder
  | .toggle n => some (r.toggle n)
  | .clear n => some (r.clear n)
  | .special => some r
  | .event e => if r.active.isSome then r.record e else some r

end Recorder

end Xi
