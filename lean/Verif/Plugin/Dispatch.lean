/-!
# Model of how a plugin keeps its views (`rust/plugin-lib/src/dispatch.rs`, `view.rs`)

Of a plugin there are the calls of its functions, each with the view as the function sees it.  The cache of the text is in `ChunkCache.lean` and
`StateCache.lean` and left out here.  Values of settings are of any type `J`, and `decode` is what `serde` makes of a table of settings.
-/

namespace Xi

namespace Dispatch

/-- `ConfigTable`, as a list of keys with values. -/
abbrev Table (J : Type) := List (String × J)

/-- `PluginBufferInfo`, core-lib/src/plugins/rpc.rs:42-54, without what only the cache needs. -/
structure Info (J : Type) where
  views : List Nat
  rev : Nat
  bufSize : Nat
  path : Option String
  syntax_ : String
  config : Table J

/-- `View`, view.rs:36-50, without the cache and the peer. -/
structure View (J Cfg : Type) where
  id : Nat
  path : Option String
  config : Cfg
  table : Table J
  plugin : Nat
  rev : Nat
  undoGroup : Option Nat
  bufSize : Nat
  language : String

/-- The messages of the core, core-lib/src/plugins/rpc.rs:97-118, that are about views. -/
inductive Msg (J : Type) where
  | start (plugin : Nat) (infos : List (Info J))
  | newBuffer (infos : List (Info J))
  | didSave (view : Nat) (path : String)
  | configChanged (view : Nat) (changes : Table J)
  | languageChanged (view : Nat) (language : String)
  | didClose (view : Nat)
  | update (view newLen rev : Nat) (undoGroup : Option Nat)
  | ask (view : Nat)

/-- The functions of a plugin that are called, with the view, and the answers to the core; `ask` is any of `custom_command`, `get_hover` and `idle`. -/
inductive Call (J Cfg : Type) where
  | initialized (plugin : Nat)
  | newView (v : View J Cfg)
  | didSave (v : View J Cfg) (old : Option String)
  | configChanged (v : View J Cfg) (changes : Table J)
  | languageChanged (v : View J Cfg) (old : String)
  | didClose (v : View J Cfg)
  | update (v : View J Cfg)
  | ask (v : View J Cfg)
  | answer (value : Nat)
  | error (code : Nat)

/-- `Dispatcher`, dispatch.rs:57-62 and 65-67. -/
structure Dispatcher (J Cfg : Type) where
  views : List (Nat × View J Cfg) := []
  pid : Option Nat := none

variable {J Cfg : Type}

/-- `HashMap::insert`. -/
def setView (m : List (Nat × View J Cfg)) (k : Nat) (v : View J Cfg) : List (Nat × View J Cfg) := (k, v) :: m.filter fun e => e.1 ≠ k

/-- `insert` into a table of settings. -/
def setKey (m : Table J) (k : String) (v : J) : Table J := (k, v) :: m.filter fun e => e.1 ≠ k

/-- `View::new`, view.rs:53-72; `none` is a panic. -/
def View.new (decode : Table J → Option Cfg) (plugin : Nat) (info : Info J) : Option (View J Cfg) :=
  match info.views with
  | [id] =>
    match decode info.config with
    | none => none
    | some config => some ⟨id, info.path, config, info.config, plugin, info.rev, none, info.bufSize, info.syntax_⟩
  | _ => none

/-- The loop in `do_new_buffer`, dispatch.rs:116-123. -/
def newViews (decode : Table J → Option Cfg) (plugin : Nat) : Dispatcher J Cfg → List (Info J) → Option (Dispatcher J Cfg × List (Call J Cfg))
  | d, [] => some (d, [])
  | d, info :: infos =>
    match View.new decode plugin info with
    | none => none
    | some v =>
      match newViews decode plugin { d with views := setView d.views v.id v } infos with
      | none => none
      | some (d, calls) => some (d, .newView v :: calls)

/-- `do_new_buffer`, dispatch.rs:114-124. -/
def Dispatcher.newBuffer (decode : Table J → Option Cfg) (d : Dispatcher J Cfg) (infos : List (Info J)) : Option (Dispatcher J Cfg × List (Call J Cfg)) :=
  match d.pid with
  | none => none
  | some plugin => newViews decode plugin d infos

/-- `do_initialize`, dispatch.rs:69-83. -/
def Dispatcher.initialize (decode : Table J → Option Cfg) (d : Dispatcher J Cfg) (plugin : Nat) (infos : List (Info J)) : Option (Dispatcher J Cfg × List (Call J Cfg)) :=
  match d.pid with
  | some _ => none
  | none => (Dispatcher.newBuffer decode { d with pid := some plugin } infos).map fun r => (r.1, .initialized plugin :: r.2)

/-- `do_did_save`, dispatch.rs:85-90. -/
def Dispatcher.didSave (d : Dispatcher J Cfg) (view : Nat) (path : String) : Option (Dispatcher J Cfg × List (Call J Cfg)) :=
  match d.views.lookup view with
  | none => some (d, [])
  | some v =>
    let v' := { v with path := some path }
    some ({ d with views := setView d.views view v' }, [.didSave v' v.path])

/-- `do_config_changed`, dispatch.rs:92-100: the plugin is called first; `none` is a panic. -/
def Dispatcher.configChanged (decode : Table J → Option Cfg) (d : Dispatcher J Cfg) (view : Nat) (changes : Table J) : Option (Dispatcher J Cfg × List (Call J Cfg)) :=
  match d.views.lookup view with
  | none => some (d, [])
  | some v =>
    let table := changes.foldl (fun m e => setKey m e.1 e.2) v.table
    match decode table with
    | none => none
    | some config => some ({ d with views := setView d.views view { v with table := table, config := config } }, [.configChanged v changes])

/-- `do_language_changed`, dispatch.rs:102-107. -/
def Dispatcher.languageChanged (d : Dispatcher J Cfg) (view : Nat) (language : String) : Option (Dispatcher J Cfg × List (Call J Cfg)) :=
  match d.views.lookup view with
  | none => some (d, [])
  | some v =>
    let v' := { v with language := language }
    some ({ d with views := setView d.views view v' }, [.languageChanged v' v.language])

/-- `do_close`, dispatch.rs:126-132. -/
def Dispatcher.close (d : Dispatcher J Cfg) (view : Nat) : Option (Dispatcher J Cfg × List (Call J Cfg)) :=
  match d.views.lookup view with
  | none => some (d, [])
  | some v => some ({ d with views := d.views.filter fun e => e.1 ≠ view }, [.didClose v])

/-- `do_update`, dispatch.rs:156-173, and `View::update`, view.rs:74-86.  For a view that is not there the core gets an error, dispatch.rs:43-53. -/
def Dispatcher.update (d : Dispatcher J Cfg) (view newLen rev : Nat) (undoGroup : Option Nat) : Option (Dispatcher J Cfg × List (Call J Cfg)) :=
  match d.views.lookup view with
  | none => some (d, [.error 404])
  | some v =>
    let v' := { v with rev := rev, undoGroup := undoGroup, bufSize := newLen }
    some ({ d with views := setView d.views view v' }, [.update v', .answer 1])

/-- `handle_notification`, `handle_request` and `idle`, dispatch.rs:191-229; `none` is a panic. -/
def Dispatcher.step (decode : Table J → Option Cfg) (d : Dispatcher J Cfg) : Msg J → Option (Dispatcher J Cfg × List (Call J Cfg))
  | .start plugin infos => d.initialize decode plugin infos
  | .newBuffer infos => d.newBuffer decode infos
  | .didSave view path => d.didSave view path
  | .configChanged view changes => d.configChanged decode view changes
  | .languageChanged view language => d.languageChanged view language
  | .didClose view => d.close view
  | .update view newLen rev undoGroup => d.update view newLen rev undoGroup
  | .ask view =>
    match d.views.lookup view with
    | none => some (d, [])
    | some v => some (d, [.ask v])

/-- `edit` of a view, view.rs:162-178: the revision and the undo group that are sent. -/
def View.edit (v : View J Cfg) (newUndoGroup : Bool) : Nat × Option Nat := (v.rev, if newUndoGroup then none else v.undoGroup)

/-- The messages of the core one after the other (the loop of `RpcLoop::mainloop` is in `Rpc/Loop.lean`), with the calls at each. -/
def Dispatcher.run (decode : Table J → Option Cfg) : Dispatcher J Cfg → List (Msg J) → Option (Dispatcher J Cfg × List (List (Call J Cfg)))
  | d, [] => some (d, [])
  | d, m :: ms =>
    match d.step decode m with
    | none => none
    | some (d, calls) => (Dispatcher.run decode d ms).map fun r => (r.1, calls :: r.2)

end Dispatch

end Xi
