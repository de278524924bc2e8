/-!
# Running plugins

Model of the part of `rust/core-lib/src/tabs.rs` that starts and stops plugins, of `rust/core-lib/src/plugins/catalog.rs` and of what
`rust/core-lib/src/event_context.rs` tells plugins and the front end about them.  Each buffer has one view, as `do_new_view` makes them (tabs.rs:365-395).
A plugin is a process with a number; its launch is a thread that connects or fails later, at any time.  Panics are `none`.
-/

namespace Xi

namespace Plugins

/-- What matters of a `PluginDescription`, plugins/manifest.rs: its name and the path of its program; `none` if the path is not UTF-8. -/
structure Desc where
  name : List Char
  execPath : Option (List Char)
deriving DecidableEq

/-- A `Plugin`, plugins/mod.rs:61-67. -/
structure Proc where
  id : Nat
  name : List Char
deriving DecidableEq

/-- A view with its buffer: which plugins have a layer of styles, which plugins' layers were deleted (layers.rs), which have annotations (annotations.rs). -/
structure PView where
  id : Nat
  layers : List Nat := []
  deleted : List Nat := []
  annotations : List Nat := []
deriving DecidableEq

/-- Messages to plugins, plugins/mod.rs:73-162. -/
inductive ToPlugin where
  | initialize (views : List Nat)
  | newBuffer (view : Nat)
  | didClose (view : Nat)
  | shutdown
  | command (view : Nat)
deriving DecidableEq

/-- Messages to the front end, client.rs:98-131 and 179-198. -/
inductive ToClient where
  | started (view : Nat) (name : List Char)
  | stopped (view : Nat) (name : List Char)
  | available (view : Nat) (running : List (List Char))
  | statusItem (view : Nat) (source : List Char)
deriving DecidableEq

/-- The fields of `CoreState` that matter, tabs.rs:104-127, with the launches that have not come to an end and all messages that were sent. -/
structure Core where
  catalog : List Desc := []
  running : List Proc := []
  launching : List Proc := []
  views : List PView := []
  pending : List Nat := []
  counter : Nat := 0
  sent : List (Nat × ToPlugin) := []
  client : List ToClient := []
deriving DecidableEq

/-- `PluginCatalog::get_named`, catalog.rs:94-96. -/
def Core.named (s : Core) (name : List Char) : Option Desc := s.catalog.find? (fun d => d.name = name)

/-- `start_plugin_process`, plugins/mod.rs:164-205, with `next_plugin_id`, tabs.rs:198-200: a launch begins. -/
def Core.launch (s : Core) (d : Desc) : Core := { s with launching := s.launching ++ [⟨s.counter + 1, d.name⟩], counter := s.counter + 1 }

/-- The end of `finish_setup`, tabs.rs:223-230: all plugins are launched. -/
def Core.launchAll (s : Core) : Core := s.catalog.foldl Core.launch s

/-- `do_start_plugin`, tabs.rs:516-533. -/
def Core.start (s : Core) (name : List Char) : Core :=
  if s.running.any (fun p => p.name = name) then s
  else
    match s.named name with
    | some d => s.launch d
    | none => s

/-- `Layers::remove_layer`, layers.rs:99-109. -/
def PView.removeLayer (v : PView) (id : Nat) : PView := { v with layers := v.layers.filter (· ≠ id), deleted := id :: v.deleted }

/-- `after_stop_plugin`, tabs.rs:555-557, with `plugin_stopped`, event_context.rs:503-516. -/
def Core.afterStop (s : Core) (p : Proc) : Core :=
  { s with views := s.views.map (·.removeLayer p.id), client := s.client ++ s.views.map (fun v => .stopped v.id p.name) }

/-- `do_stop_plugin`, tabs.rs:535-546. -/
def Core.stop (s : Core) (name : List Char) : Core :=
  match s.running.findIdx? (fun p => p.name = name) with
  | none => s
  | some ix =>
    match s.running[ix]? with
    | none => s
    | some p => ({ s with running := s.running.eraseIdx ix, sent := s.sent ++ [(p.id, .shutdown)] } : Core).afterStop p

/-- `plugin_connect`, tabs.rs:924-934, when the launch of `p` comes to an end. -/
def Core.connect (s : Core) (p : Proc) (ok : Bool) : Core :=
  let s := { s with launching := s.launching.erase p }
  if ok then { s with sent := s.sent ++ [(p.id, .initialize (s.views.map (·.id)))], running := s.running ++ [p] }
  else s

/-- `plugin_exit`, tabs.rs:936-943. -/
def Core.exit (s : Core) (id : Nat) : Core :=
  match s.running.findIdx? (fun p => p.id = id) with
  | none => s
  | some ix =>
    match s.running[ix]? with
    | none => s
    | some p => ({ s with running := s.running.eraseIdx ix } : Core).afterStop p

/-- `do_new_view`, tabs.rs:365-395: a view and a buffer with new numbers; the view is pending. -/
def Core.newView (s : Core) : Core :=
  { s with counter := s.counter + 2, views := s.views ++ [{ id := s.counter + 1 }], pending := s.pending ++ [s.counter + 1] }

/-- The part of `finish_init`, event_context.rs:395-410, that is about plugins. -/
def Core.finishInit (s : Core) (view : Nat) : Core :=
  { s with
    sent := s.sent ++ s.running.map (fun p => (p.id, .newBuffer view))
    client := s.client ++ s.running.map (fun p => .started view p.name) ++ [.available view (s.running.map (·.name))] }

/-- `finalize_new_views`, tabs.rs:579-588; a view that has been closed is a panic. -/
def Core.finalize (s : Core) : Option Core :=
  s.pending.foldlM (fun s view => if s.views.any (fun v => v.id = view) then some (s.finishInit view) else none) { s with pending := [] }

/-- `do_close_view`, tabs.rs:431-443, with `close_view`, event_context.rs:438-443. -/
def Core.closeView (s : Core) (view : Nat) : Core :=
  if s.views.any (fun v => v.id = view) then
    { s with views := s.views.filter (fun v => v.id ≠ view), sent := s.sent ++ s.running.map (fun p => (p.id, .didClose view)) }
  else s

/-- The notifications of a plugin that matter. -/
inductive Notification where
  | scopes
  | annotations
  | statusItem
deriving DecidableEq

/-- `Layers::create_if_missing`, layers.rs:159-167, which `add_scopes` and `update_layer` call. -/
def PView.addLayer (v : PView) (id : Nat) : PView :=
  if id ∈ v.deleted ∨ id ∈ v.layers then v else { v with layers := id :: v.layers }

/-- `AnnotationStore::update`, annotations.rs:163-177. -/
def PView.annotate (v : PView) (id : Nat) : PView := if id ∈ v.annotations then v else { v with annotations := id :: v.annotations }

/-- The view with number `view` is changed. -/
def Core.onView (s : Core) (view : Nat) (f : PView → PView) : Core := { s with views := s.views.map (fun v => if v.id = view then f v else v) }

/-- `plugin_notification`, tabs.rs:957-967, with `do_plugin_cmd`, event_context.rs:228-258. -/
def Core.notification (s : Core) (id view : Nat) (n : Notification) : Option Core :=
  if s.views.any (fun v => v.id = view) then
    match n with
    | .scopes => some (s.onView view (·.addLayer id))
    | .annotations => some (s.onView view (·.annotate id))
    | .statusItem => (s.running.find? (fun p => p.id = id)).map (fun p => { s with client := s.client ++ [.statusItem view p.name] })
  else some s

/-- `do_plugin_rpc`, tabs.rs:548-553. -/
def Core.rpc (s : Core) (view : Nat) (receiver : List Char) : Core :=
  { s with sent := s.sent ++ (s.running.filter (fun p => p.name = receiver)).map (fun p => (p.id, .command view)) }

/-- `PluginCatalog::load_from_paths`, catalog.rs:53-66, from the manifests that are found and can be read. -/
def Core.load (s : Core) (found : List Desc) : Core :=
  { s with catalog := found.foldl (fun c d => c.filter (fun d' => d'.name ≠ d.name) ++ [d]) s.catalog }

/-- `str::contains`. -/
def contains (s pat : List Char) : Bool :=
  pat.isPrefixOf s ||
    match s with
    | [] => false
    | _ :: s => contains s pat

/-- `PluginCatalog::get_from_path`, catalog.rs:86-91, with the plugins in some order; a path that is not UTF-8 is a panic. -/
def fromPath (path : Option (List Char)) : List Desc → Option (Option Desc)
  | [] => some none
  | d :: ds =>
    match d.execPath, path with
    | some exec, some p => if contains exec p then some (some d) else fromPath path ds
    | _, _ => none

/-- `PluginCatalog::remove_named`, catalog.rs:99-101. -/
def Core.removeNamed (s : Core) (name : List Char) : Core := { s with catalog := s.catalog.filter (fun d => d.name ≠ name) }

/-- Events in the directory of the plugins, with the manifests that are found at a path, and whether the path still exists. -/
inductive FsEvent where
  | changed (path : Option (List Char)) (found : List Desc)
  | removed (path : Option (List Char)) (gone : Bool)
  | renamed (old new : Option (List Char)) (found : List Desc)
  | metadata (path : Option (List Char))
  | other

/-- The first two cases of `handle_plugin_fs_event`: the plugin at a path is loaded and started, tabs.rs:777-780 and 798-801. -/
def Core.loadAndStart (s : Core) (path : Option (List Char)) (found : List Desc) : Option Core :=
  let s := s.load found
  (fromPath path s.catalog).map (fun
    | some d => s.start d.name
    | none => s)

/-- The plugin at a path is stopped and removed, tabs.rs:785-788 and 793-796. -/
def Core.stopAndRemove (s : Core) (path : Option (List Char)) : Option Core :=
  (fromPath path s.catalog).map (fun
    | some d => (s.stop d.name).removeNamed d.name
    | none => s)

/-- The plugin at a path is stopped and started, tabs.rs:805-808. -/
def Core.restart (s : Core) (path : Option (List Char)) : Option Core :=
  (fromPath path s.catalog).map (fun
    | some d => (s.stop d.name).start d.name
    | none => s)

/-- What each view is told after an event, tabs.rs:813-820. -/
def Core.announce (s : Core) : Core := { s with client := s.client ++ s.views.map (fun v => .available v.id (s.catalog.map (·.name))) }

/-- `handle_plugin_fs_event`, tabs.rs:773-821. -/
def Core.fsEvent (s : Core) (e : FsEvent) : Option Core :=
  (match e with
  | .changed path found => s.loadAndStart path found
  | .removed path gone => if gone then s.stopAndRemove path else s.restart path
  | .renamed old new found => (s.stopAndRemove old).bind (fun s => s.loadAndStart new found)
  | .metadata path => s.restart path
  | .other => some s).map Core.announce

/-- What happens to the core. -/
inductive Op where
  | start (name : List Char)
  | stop (name : List Char)
  | connect (p : Proc) (ok : Bool)
  | exit (id : Nat)
  | newView
  | finalize
  | closeView (view : Nat)
  | notification (id view : Nat) (n : Notification)
  | rpc (view : Nat) (receiver : List Char)
  | fsEvent (e : FsEvent)

/-- One operation; only launches that have begun come to an end. -/
def Core.step (s : Core) : Op → Option Core
  | .start name => some (s.start name)
  | .stop name => some (s.stop name)
  | .connect p ok => some (if p ∈ s.launching then s.connect p ok else s)
  | .exit id => some (s.exit id)
  | .newView => some s.newView
  | .finalize => s.finalize
  | .closeView view => some (s.closeView view)
  | .notification id view n => s.notification id view n
  | .rpc view receiver => some (s.rpc view receiver)
  | .fsEvent e => s.fsEvent e

end Plugins

end Xi
