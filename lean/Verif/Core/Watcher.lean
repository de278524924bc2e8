/-!
# Watching files

Model of `rust/core-lib/src/watcher.rs`.  The crate `notify`, which asks the operating
system, is not part of the repository; what is assumed of it is `Registry`.
-/

namespace Xi

namespace Watch

/-- A path: the names from the root to the file.  `Path::starts_with` compares whole names. -/
abbrev Path := List String

/-- `Path::parent`. -/
def Path.parent (p : Path) : Option Path :=
  if p.isEmpty then none else some p.dropLast

/-- `notify::EventKind`, as far as `wants_event` tells the kinds apart (watcher.rs:226-256); `other` is
everything else. -/
inductive Kind where
  | create
  | remove
  | modify
  | metadata
  | renameBoth
  | other
deriving DecidableEq, Repr

/-- `notify::Event`. -/
structure Event where
  kind : Kind
  paths : List Path
deriving DecidableEq, Repr

/-- `struct Watchee`, watcher.rs:66-74; a missing filter accepts everything. -/
structure Watchee where
  path : Path
  recursive : Bool
  token : Nat
  filter : Path → Bool

/-- `Watchee::applies_to_path`, watcher.rs:259-271. -/
def Watchee.appliesToPath (w : Watchee) (path : Path) : Bool :=
  let general := if w.path.isPrefixOf path then (w.recursive || w.path == path) || path.parent == some w.path else false
  general && w.filter path

/-- `Watchee::wants_event`, watcher.rs:225-257. -/
def Watchee.wantsEvent (w : Watchee) (event : Event) : Bool :=
  match event.kind with
  | .create | .remove | .modify | .metadata =>
    match event.paths with
    | [p] => w.appliesToPath p
    | _ => false
  | .renameBoth =>
    match event.paths with
    | [p, q] => w.appliesToPath p || w.appliesToPath q
    | _ => false
  | .other => false

/-- What the crate `notify` has been told to watch, with the mode (`true` is recursive).  Assumed of it: watching a path again changes
its mode, and no longer watching a recursive one ends the watches below it too.  Errors of the operating system are left out. -/
abbrev Registry := List (Path × Bool)

/-- `notify::Watcher::watch`; assumed. -/
def Registry.watch (r : Registry) (path : Path) (recursive : Bool) : Registry :=
  r.filter (fun x => x.1 != path) ++ [(path, recursive)]

/-- `notify::Watcher::unwatch`; assumed. -/
def Registry.unwatch (r : Registry) (path : Path) : Registry :=
  if r.contains (path, true) then r.filter (fun x => !path.isPrefixOf x.1) else r.filter (fun x => x.1 != path)

/-- Something happening to `path` is noticed; assumed. -/
def Registry.covers (r : Registry) (path : Path) : Bool :=
  r.any (fun x => x.1 == path || path.parent == some x.1 || (x.2 && x.1.isPrefixOf path))

/-- `struct FileWatcher` with its `WatcherState`, watcher.rs:55-64, and whether the thread that takes events from the
crate is still running (watcher.rs:103) and the idle task is waiting (watcher.rs:274-278). -/
structure FileWatcher where
  events : List (Nat × Event) := []
  watchees : List Watchee := []
  inner : Registry := []
  running : Bool := true
  idle : Bool := false

/-- `FileWatcher::watch_impl`, watcher.rs:142-169; `canon` is `Path::canonicalize`. -/
def FileWatcher.watch (canon : Path → Option Path) (f : FileWatcher) (path : Path) (recursive : Bool) (token : Nat) (filter : Path → Bool) : FileWatcher :=
  match canon path with
  | none => f
  | some path =>
    { f with
      inner := if !f.watchees.any (fun w => path == w.path) then f.inner.watch path recursive else f.inner
      watchees := f.watchees ++ [⟨path, recursive, token, filter⟩] }

/-- `FileWatcher::unwatch`, watcher.rs:174-214. -/
def FileWatcher.unwatch (f : FileWatcher) (path : Path) (token : Nat) : FileWatcher :=
  match f.watchees.find? (fun w => w.token == token && w.path == path) with
  | none => f
  | some removed =>
    let watchees := f.watchees.eraseP (fun w => w.token == token && w.path == path)
    let inner := if !watchees.any (fun w => w.path == removed.path) then f.inner.unwatch removed.path else f.inner
    let inner :=
      if removed.recursive then
        (watchees.filter (fun w => removed.path.isPrefixOf w.path)).foldl (fun r w => r.watch w.path w.recursive) inner
      else inner
    { f with watchees := watchees, inner := inner }

/-- The thread that takes what the crate reports, watcher.rs:102-115; `none` is an error that the crate reports. -/
def FileWatcher.report (f : FileWatcher) (event : Option Event) : FileWatcher :=
  if f.running then
    match event with
    | none => { f with running := false }
    | some event =>
      { f with
        events := f.events ++ ((f.watchees.filter (fun w => w.wantsEvent event)).map (fun w => (w.token, event)))
        idle := true }
  else f

/-- `FileWatcher::take_events`, watcher.rs:217-221, as the idle task calls it (tabs.rs:686-699). -/
def FileWatcher.takeEvents (f : FileWatcher) : FileWatcher × List (Nat × Event) :=
  ({ f with events := [], idle := false }, f.events)

end Watch

end Xi
