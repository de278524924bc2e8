import Verif.Lsp.Status

/-!
# What the status bars show, and what they should
-/

namespace Xi

namespace Lsp

/-- The status bar of each view: keys and values. -/
abbrev Bars := Nat → List (String × String)

/-- The front end hears a message. -/
def hear (bars : Bars) : StatusMsg → Bars
  | .add view key value _ => fun v => if v = view then bars v ++ [(key, value)] else bars v
  | .update view key value => fun v => if v = view then (bars v).map fun e => if e.1 = key then (key, value) else e else bars v
  | .remove view key => fun v => if v = view then (bars v).filter fun e => e.1 ≠ key else bars v

/-- What the server says: a task goes on, with a text, or is done. -/
inductive Task where
  | goesOn (id text : String)
  | done (id : String)

/-- The tasks that go on, with the last text of each. -/
def follow (running : List (String × String)) : Task → List (String × String)
  | .goesOn id text =>
    if id ∈ running.map Prod.fst then running.map fun e => if e.1 = id then (id, text) else e else running ++ [(id, text)]
  | .done id => running.filter fun e => e.1 ≠ id

/-- What happens. -/
inductive StatusEvent where
  | opened (view : Nat)
  | closed (view : Nat)
  | task (t : Task)

/-- The world: the tasks of the server, and for each view those that had begun before it was opened. -/
structure Tasks where
  running : List (String × String) := []
  earlier : Nat → List String := fun _ => []

/-- What happens to the tasks. -/
def Tasks.step (s : Tasks) : StatusEvent → Tasks
  | .opened view => { s with earlier := fun v => if v = view then s.running.map Prod.fst else s.earlier v }
  | .closed _ => s
  | .task (.goesOn id text) => { s with running := follow s.running (.goesOn id text) }
  | .task (.done id) => ⟨follow s.running (.done id), fun v => (s.earlier v).filter fun x => x ≠ id⟩

end Lsp

end Xi
