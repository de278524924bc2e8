import Verif.Core.Watcher

/-!
# Specification: who is told of changes to files
-/

namespace Xi

namespace Watch

/-- `q` is `p` or below it. -/
def Under (p q : Path) : Prop := ∃ rest, q = p ++ rest

/-- Somebody who watches `w` wants to know about `q`: it is the path itself, directly in it, or, if the watch is recursive, anywhere below. -/
def Concerns (w : Watchee) (q : Path) : Prop :=
  w.filter q = true ∧ (q = w.path ∨ (∃ name, q = w.path ++ [name]) ∨ (w.recursive = true ∧ Under w.path q))

/-- Who watches `w` wants to know about the event: something of a known kind happened to one path, or one was renamed to another. -/
def Wants (w : Watchee) (event : Event) : Prop :=
  (event.kind ≠ .other ∧ event.kind ≠ .renameBoth ∧ ∃ p, event.paths = [p] ∧ Concerns w p) ∨
  (event.kind = .renameBoth ∧ ∃ p q, event.paths = [p, q] ∧ (Concerns w p ∨ Concerns w q))

/-- What may happen. -/
inductive Op where
  /-- somebody wants to watch -/
  | watch (path : Path) (recursive : Bool) (token : Nat) (filter : Path → Bool)
  /-- or no longer does -/
  | unwatch (path : Path) (token : Nat)
  /-- something happens to files -/
  | change (event : Event)
  /-- the crate reports an error -/
  | fault
  /-- the idle task runs -/
  | take

/-- The watcher after an operation, and the events handed out.  A change is reported if the crate watches one of its paths. -/
def FileWatcher.step (canon : Path → Option Path) (f : FileWatcher) : Op → FileWatcher × List (Nat × Event)
  | .watch path recursive token filter => (f.watch canon path recursive token filter, [])
  | .unwatch path token => (f.unwatch path token, [])
  | .change event => (if event.paths.any f.inner.covers then f.report (some event) else f, [])
  | .fault => (f.report none, [])
  | .take => f.takeEvents

/-- The watcher after some operations, and all events handed out. -/
def FileWatcher.run (canon : Path → Option Path) (f : FileWatcher) : List Op → FileWatcher × List (Nat × Event)
  | [] => (f, [])
  | op :: ops =>
    let r := f.step canon op
    let r' := r.1.run canon ops
    (r'.1, r.2 ++ r'.2)

/-- The watches there are after an operation, with their real paths. -/
def watches (canon : Path → Option Path) (ws : List Watchee) : Op → List Watchee
  | .watch path recursive token filter =>
    match canon path with
    | none => ws
    | some p => ws ++ [⟨p, recursive, token, filter⟩]
  | .unwatch path token => ws.eraseP (fun w => w.token == token && some w.path == canon path)
  | _ => ws

open Classical in
/-- Who has to be told of an operation: of a change those who watch it. -/
noncomputable def told (ws : List Watchee) : Op → List (Nat × Event)
  | .change event => (ws.filter (fun w => decide (Wants w event))).map (fun w => (w.token, event))
  | _ => []

/-- Who has to be told what, in order. -/
noncomputable def due (canon : Path → Option Path) (ws : List Watchee) : List Op → List (Nat × Event)
  | [] => []
  | op :: ops => told ws op ++ due canon (watches canon ws op) ops

/-- The operation gives the real path of what is no longer watched. -/
def Canonical (canon : Path → Option Path) : Op → Prop
  | .unwatch path _ => canon path = some path
  | _ => True

/-- All watches of one path are recursive, or none is: `mode` says which. -/
def OneMode (canon : Path → Option Path) (mode : Path → Bool) : Op → Prop
  | .watch path recursive _ _ => ∀ p, canon path = some p → recursive = mode p
  | _ => True

/-- The crate reports no error. -/
def Op.NoFault : Op → Prop
  | .fault => False
  | _ => True

end Watch

end Xi
