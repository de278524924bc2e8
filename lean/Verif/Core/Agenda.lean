/-!
# When the core draws, wraps and searches

The core puts off work: with plugins about, an update of the front-end waits for them a little; wrapping and finding are
done a batch at a time, whenever the core has nothing else to do.  What is put off is kept as a number, a token, that
the RPC loop hands back.  Here we model who schedules what, of core-lib/src/event_context.rs and tabs.rs.

What the parts of a view do is modelled elsewhere (`Core/LineCache.lean`, `Core/RewrapLines.lean`, `Core/FindLoop.lean`)
and is left open here: `Parts` says what is asked of them and what is done with them.  (Whether there is anything to send is found out
by `render_if_dirty` itself.)  Each view has its own buffer
(tabs.rs:366-394 makes both), so `siblings` is always empty and one value `S` stands for a view with its buffer.

Simplified: the messages to front-end and plugins are left out (see `Plugin/…`, `Core/Plugins.lean`); so is `detect_whitespace`
in `finalize_new_views`, which does not touch the view.
-/
namespace Xi.Agenda

/-- What event_context.rs asks of a view and its buffer and does with them. -/
structure Parts (S : Type) where
  /-- `needs_more_wrap`, view.rs:220-222: `!lines.is_converged()` -/
  unwrapped : S → Bool
  /-- `needs_wrap_in_visible_region`, view.rs:224-231 -/
  looksUnwrapped : S → Bool
  /-- `find_in_progress`, view.rs:233-239 -/
  finding : S → Bool
  /-- `View::rewrap`, view.rs:960-973 -/
  rewrap : S → S
  /-- `View::do_find`, view.rs:1088- -/
  find : S → S
  /-- `render_if_dirty`, view.rs:906-922 -/
  render : S → S
  /-- `set_dirty`, view.rs:943-949 -/
  setDirty : S → S
  /-- `commit_delta` and `update_views`, event_context.rs:276-282 and 298-311; `none`: there is nothing to commit -/
  commit : S → Option S

/-- A view: its content, and `pending_render`. -/
structure V (S : Type) where
  /-- the view and its buffer -/
  st : S
  /-- `has_pending_render` -/
  pendingRender : Bool

/-- `RENDER_VIEW_IDLE_MASK`, tabs.rs:81 -/
def renderMask : Nat := 1 <<< 25
/-- `REWRAP_VIEW_IDLE_MASK`, tabs.rs:82 -/
def rewrapMask : Nat := 1 <<< 26
/-- `FIND_VIEW_IDLE_MASK`, tabs.rs:83 -/
def findMask : Nat := 1 <<< 27
/-- `NEW_VIEW_IDLE_TOKEN`, tabs.rs:85 -/
def newViewToken : Nat := 1001
/-- `WATCH_IDLE_TOKEN`, tabs.rs:88 -/
def watchToken : Nat := 1002

/-- A view together with the tokens that have been scheduled, the latest last. -/
abbrev W (S : Type) := V S × List Nat

/-- `render`, event_context.rs:368-379 -/
def render (p : Parts S) (w : W S) : W S := ({ w.1 with st := p.render w.1.st }, w.2)

/-- `render_if_needed`, event_context.rs:355-360 -/
def renderIfNeeded (p : Parts S) (w : W S) : W S :=
  let needed := !w.1.pendingRender
  if needed then render p w else w

/-- `_finish_delayed_render`, event_context.rs:362-365 -/
def finishDelayedRender (p : Parts S) (w : W S) : W S :=
  let w := render p w
  ({ w.1 with pendingRender := false }, w.2)

/-- `with_view` / `with_editor` with `f`, event_context.rs:86-107 -/
def within (f : S → S) (w : W S) : W S := ({ w.1 with st := f w.1.st }, w.2)

/-- `rewrap`, event_context.rs:573-578 -/
def rewrap (p : Parts S) (w : W S) : W S := within p.rewrap w

/-- `schedule_rewrap`, event_context.rs:618-622 -/
def scheduleRewrap (id : Nat) (w : W S) : W S := (w.1, w.2 ++ [rewrapMask ||| id])

/-- `schedule_find`, event_context.rs:596-600 -/
def scheduleFind (id : Nat) (w : W S) : W S := (w.1, w.2 ++ [findMask ||| id])

/-- `do_incremental_find`, event_context.rs:581-594 -/
def doIncrementalFind (p : Parts S) (id : Nat) (w : W S) : W S :=
  let w := within p.find w
  let w := if p.finding w.1.st then scheduleFind id w else w
  renderIfNeeded p w

/-- `do_rewrap_batch`, event_context.rs:610-616 -/
def doRewrapBatch (p : Parts S) (id : Nat) (w : W S) : W S :=
  let w := rewrap p w
  let w := if p.unwrapped w.1.st then scheduleRewrap id w else w
  renderIfNeeded p w

/-- `update_wrap_settings`, event_context.rs:557-568; `f` is `View::update_wrap_settings` with the settings there are. -/
def updateWrapSettings (p : Parts S) (id : Nat) (f : S → S) (rewrapImmediately : Bool) (w : W S) : W S :=
  let w := within f w
  let w := if rewrapImmediately then within p.setDirty (rewrap p w) else w
  if p.unwrapped w.1.st then scheduleRewrap id w else w

/-- `after_edit`, event_context.rs:271-296; `plugins`: is any plugin running? -/
def afterEdit (p : Parts S) (plugins : Bool) (id : Nat) (w : W S) : W S :=
  match p.commit w.1.st with
  | none => w
  | some st =>
    let w : W S := ({ w.1 with st := st }, w.2)
    if plugins then
      if w.1.pendingRender then w else ({ w.1 with pendingRender := true }, w.2 ++ [renderMask ||| id])
    else w

/-- What the core can be asked to do with a view, but for playing a recording.  The functions are what the view and its
buffer make of it. -/
inductive Cmd (S : Type) where
  /-- `E::View`: `View::do_edit` -/
  | view (f : S → S)
  /-- `E::Buffer`: `Editor::do_edit`; also `do_cut` and `do_copy` -/
  | buffer (f : S → S)
  /-- `Resize`: `set_size`, and `update_wrap_settings` if lines are to be wrapped -/
  | resize (size : S → S) (wrap : Option (S → S))
  /-- `RequestLines`: `View::request_lines` -/
  | lines (f : S → S)
  /-- the other special events: debugging, hovers, recording -/
  | other

/-- `dispatch_event` and `do_special`, event_context.rs:136-183 and 208-213 -/
def dispatch (p : Parts S) (id : Nat) (w : W S) : Cmd S → W S
  | .view f =>
    let w := within f w
    let w := if p.looksUnwrapped w.1.st then rewrap p w else w
    if p.finding w.1.st then doIncrementalFind p id w else w
  | .buffer f => within f w
  | .resize size wrap =>
    let w := within size w
    match wrap with
    | some f => updateWrapSettings p id f false w
    | none => w
  | .lines f => within f w
  | .other => w

/-- The closure given to `play`, event_context.rs:194-202 -/
def playOne (p : Parts S) (id : Nat) (w : W S) (c : Cmd S) : W S :=
  let w := dispatch p id w c
  match p.commit w.1.st with
  | none => w
  | some st => ({ w.1 with st := st }, w.2)

/-- `do_edit` and `do_edit_sync`, event_context.rs:130-134 and 218-226 -/
def doEdit (p : Parts S) (plugins : Bool) (id : Nat) (c : Cmd S) (w : W S) : W S :=
  renderIfNeeded p (afterEdit p plugins id (dispatch p id w c))

/-- `do_edit` of `PlayRecording`, event_context.rs:130-134 and 183-207 -/
def doPlay (p : Parts S) (plugins : Bool) (id : Nat) (cs : List (Cmd S)) (w : W S) : W S :=
  renderIfNeeded p (afterEdit p plugins id (cs.foldl (playOne p id) w))

/-- `do_plugin_cmd`, event_context.rs:228-258; `f` is what the message does to view and buffer. -/
def doPluginCmd (p : Parts S) (plugins : Bool) (id : Nat) (f : S → S) (w : W S) : W S :=
  renderIfNeeded p (afterEdit p plugins id (within f w))

/-- `finish_init`, event_context.rs:395-426 -/
def finishInit (p : Parts S) (id : Nat) (w : W S) : W S :=
  let w := rewrap p w
  let w := if p.unwrapped w.1.st then scheduleRewrap id w else w
  render p (within p.setDirty w)

/-- `after_save`, event_context.rs:428-435; `f` is `set_pristine`. -/
def afterSave (p : Parts S) (f : S → S) (w : W S) : W S := render p (within p.setDirty (within f w))

/-- `config_changed`, event_context.rs:445-463; `wrap`: `View::update_wrap_settings`, if the changes are about it. -/
def configChanged (p : Parts S) (id : Nat) (wrap : Option (S → S)) (w : W S) : W S :=
  match wrap with
  | some f => render p (updateWrapSettings p id f true w)
  | none => render p w

/-- `reload`, event_context.rs:471-475; `f` is `Editor::reload`. -/
def reload (p : Parts S) (plugins : Bool) (id : Nat) (f : S → S) (w : W S) : W S :=
  render p (afterEdit p plugins id (within f w))

/-- `plugin_stopped`, event_context.rs:503-515; `layer`: removing the plugin's layer, if it has one. -/
def pluginStopped (p : Parts S) (layer : Option (S → S)) (w : W S) : W S :=
  match layer with
  | some f => render p (within p.setDirty (within f w))
  | none => w

/-- `notify_client_and_update_views` for one view, tabs.rs:465-471; `f` is `Editor::theme_changed`. -/
def themeChanged (p : Parts S) (f : S → S) (w : W S) : W S := renderIfNeeded p (within p.setDirty (within f w))

/-- What `CoreState` keeps, as far as it matters here, and what the RPC loop has still to hand back. -/
structure Core (S : Type) where
  /-- `views` -/
  views : List (Nat × V S)
  /-- `pending_views` -/
  pending : List Nat
  /-- idle tokens and timers that have not come due -/
  agenda : List Nat

/-- `make_context`, and what is done with it: nothing if there is no such view.  tabs.rs:355-358, 662-683 and others. -/
def Core.on (c : Core S) (id : Nat) (k : W S → W S) : Core S :=
  match c.views.lookup id with
  | none => c
  | some v =>
    let w := k (v, [])
    { c with views := c.views.map (fun e => if e.1 = id then (id, w.1) else e), agenda := c.agenda ++ w.2 }

/-- The loop of `finalize_new_views`, tabs.rs:582-587; `make_context(*id).unwrap()` panics if the view is gone. -/
def finalizeLoop (p : Parts S) : List Nat → Core S → Option (Core S)
  | [], c => some c
  | id :: ids, c =>
    match c.views.lookup id with
    | none => none
    | some _ => finalizeLoop p ids (c.on id (finishInit p id))

/-- `finalize_new_views`, tabs.rs:579-588 -/
def finalizeNewViews (p : Parts S) (c : Core S) : Option (Core S) := finalizeLoop p c.pending { c with pending := [] }

/-- `handle_idle`, tabs.rs:562-577, with `handle_render_timer`, `handle_rewrap_callback` and `handle_find_callback`, tabs.rs:662-683.
`handle_fs_events` is left out: what it does to views are the events `reload` and `config` below. -/
def handleIdle (p : Parts S) (c : Core S) (token : Nat) : Option (Core S) :=
  if token = newViewToken then finalizeNewViews p c
  else if token = watchToken then some c
  else if token &&& renderMask ≠ 0 then some (c.on (token ^^^ renderMask) (finishDelayedRender p))
  else if token &&& rewrapMask ≠ 0 then
    let id := token ^^^ rewrapMask
    some (c.on id (doRewrapBatch p id))
  else if token &&& findMask ≠ 0 then
    let id := token ^^^ findMask
    some (c.on id (doIncrementalFind p id))
  else none

/-- What can happen to the core. -/
inductive Event (S : Type) where
  /-- `do_new_view`, tabs.rs:366-395: `st` is the new view after `view_init`. -/
  | new (id : Nat) (st : S)
  /-- `do_close_view`, tabs.rs:431-443 -/
  | close (id : Nat)
  | edit (id : Nat) (plugins : Bool) (c : Cmd S)
  | play (id : Nat) (plugins : Bool) (cs : List (Cmd S))
  | plugin (id : Nat) (plugins : Bool) (f : S → S)
  | saved (id : Nat) (f : S → S)
  | config (id : Nat) (wrap : Option (S → S))
  | reload (id : Nat) (plugins : Bool) (f : S → S)
  | stopped (id : Nat) (layer : Option (S → S))
  /-- one round of the loop in tabs.rs:465-471 -/
  | theme (id : Nat) (f : S → S)
  /-- something changed in a folder that is watched: watcher.rs schedules `WATCH_IDLE_TOKEN` -/
  | watch
  /-- the RPC loop hands back the `i`th token on the agenda.  (Idle tokens come in turn and timers by their time; any order
  is allowed here.) -/
  | fire (i : Nat)

/-- One event; `none` is a panic. -/
def step (p : Parts S) (c : Core S) : Event S → Option (Core S)
  | .new id st => some { views := c.views ++ [(id, { st := st, pendingRender := false })], pending := c.pending ++ [id], agenda := c.agenda ++ [newViewToken] }
  | .close id => some { c with views := c.views.filter (fun e => e.1 ≠ id) }
  | .edit id plugins cmd => some (c.on id (doEdit p plugins id cmd))
  | .play id plugins cmds => some (c.on id (doPlay p plugins id cmds))
  | .plugin id plugins f => some (c.on id (doPluginCmd p plugins id f))
  | .saved id f => some (c.on id (afterSave p f))
  | .config id wrap => some (c.on id (configChanged p id wrap))
  | .reload id plugins f => some (c.on id (Agenda.reload p plugins id f))
  | .stopped id layer => some (c.on id (pluginStopped p layer))
  | .theme id f => some (c.on id (themeChanged p f))
  | .watch => some { c with agenda := c.agenda ++ [watchToken] }
  | .fire i =>
    match c.agenda[i]? with
    | none => some c
    | some token => handleIdle p { c with agenda := c.agenda.eraseIdx i } token

/-- A run of the core. -/
def run (p : Parts S) : Core S → List (Event S) → Option (Core S)
  | c, [] => some c
  | c, e :: es => (step p c e).bind (run p · es)

/-- The core at the start. -/
def start : Core S := { views := [], pending := [], agenda := [] }

end Xi.Agenda
