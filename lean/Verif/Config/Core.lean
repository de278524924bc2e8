import Verif.Config.Manager

/-!
# Model of the parts of `rust/core-lib/src/tabs.rs` that tell views about their settings

Of the editors only what `detect_whitespace` finds in their texts is here, and it is given from outside.  The map of editors has the same
keys as the buffers of the configuration manager: both change in `do_new_view` and `do_close_view` only.  Plugins, and everything
else a context does, are left out.
-/

namespace Xi

namespace Config

variable {V : Type} [DecidableEq V]

/-- `CoreState`, tabs.rs:104-127: the configuration manager, the views with their buffers, the pending views, the counter, and the
`config_changed` messages that have been sent to views, the oldest one first. -/
structure Core (V : Type) where
  manager : Manager V
  views : Map Nat Nat
  pending : List (Nat × Table V)
  next : Nat
  sent : List (Nat × Table V)

/-- `CoreState::new`, tabs.rs:131-188, with the base configuration. -/
def Core.new (defaults : Table V) : Core V := ⟨Manager.new defaults, [], [], 0, []⟩

/-- `CoreState::make_context`, tabs.rs:275-303: the buffer of a view; `get_buffer_config` (config.rs:392-394) panics if it has no settings. -/
def Core.context (c : Core V) (view : Nat) : Option (Option Nat) :=
  match c.views.lookup view with
  | none => some none
  | some b => if (c.manager.buffers.lookup b).isSome then some (some b) else none

/-- `EventContext::config_changed`, event_context.rs:445-463: the message to the client. -/
def Core.send (c : Core V) (view : Nat) (t : Table V) : Core V := { c with sent := c.sent ++ [(view, t)] }

/-- The view that is found for a buffer, tabs.rs:257-262. -/
def Core.viewOf (c : Core V) (b : Nat) : Option Nat := (c.views.find? fun e => e.2 == b).map (·.1)

/-- `CoreState::handle_config_changes`, tabs.rs:255-266. -/
def Core.tell : List (Nat × Table V) → Core V → Option (Core V)
  | [], c => some c
  | (b, t) :: changes, c => do
    let view ← c.viewOf b
    let _ ← (← c.context view)
    Core.tell changes (c.send view t)

/-- `CoreState::set_config`, tabs.rs:247-252. -/
def Core.setConfig (σ : Schema V) (c : Core V) (dom : Domain) (t : Table V) : Option (Core V) := do
  let (m, r) ← c.manager.setUserConfig σ dom t
  Core.tell (r.getD []) { c with manager := m }

/-- `ConfigDomainExternal`, config.rs:81-87. -/
inductive External where
  | general
  | language (name : String)
  | userOverride (view : Nat)

/-- The domain meant, tabs.rs:474-483. -/
def Core.domain (c : Core V) : External → Option Domain
  | .general => some .general
  | .language n => some (.language n)
  | .userOverride v => (c.views.lookup v).map .userOverride

/-- `CoreState::do_modify_user_config`, tabs.rs:472-486. -/
def Core.modify (σ : Schema V) (c : Core V) (dom : External) (changes : Table V) : Option (Core V) :=
  match c.domain dom with
  | none => some c
  | some d =>
    let r := c.manager.tableForUpdate σ d changes
    Core.setConfig σ { c with manager := r.1 } d r.2

/-- `CoreState::do_new_view`, tabs.rs:364-395. -/
def Core.newView (σ : Schema V) (c : Core V) (path : Option String) : Option (Core V) := do
  let view := c.next
  let b := c.next + 1
  let (m, t) ← c.manager.addBuffer σ b path
  let c := { c with manager := m, views := set c.views view b, next := c.next + 2 }
  let _ ← (← c.context view)
  return { c with pending := c.pending ++ [(view, t)] }

/-- `CoreState::do_save`, tabs.rs:397-429, of a save that works. -/
def Core.save (σ : Schema V) (c : Core V) (view : Nat) (path : String) : Option (Core V) :=
  match c.views.lookup view with
  | none => some c
  | some b => do
    let _ ← (← c.context view)
    let (m, changes) ← c.manager.updatePath σ b path
    let c := { c with manager := m }
    let _ ← (← c.context view)
    match changes with
    | some t => return c.send view t
    | none => return c

/-- `CoreState::do_set_language`, tabs.rs:503-514. -/
def Core.setLanguage (σ : Schema V) (c : Core V) (view : Nat) (lang : String) : Option (Core V) :=
  match c.views.lookup view with
  | none => some c
  | some b => do
    let (m, changes) ← c.manager.overrideLanguage σ b lang
    let c := { c with manager := m }
    let _ ← (← c.context view)
    match changes with
    | some t => return c.send view t
    | none => return c

/-- `CoreState::do_close_view`, tabs.rs:431-443; `siblings` is always empty (tabs.rs:294). -/
def Core.closeView (c : Core V) (view : Nat) : Option (Core V) := do
  let _ ← c.context view
  match c.views.lookup view with
  | none => return c
  | some b => return { c with views := unset c.views view, manager := ← c.manager.removeBuffer b }

/-- `CoreState::detect_whitespace`, tabs.rs:591-660.  `found b` are the changes for the text of a buffer, if it is not empty; `on` is the
value true. -/
def Core.detect (σ : Schema V) (on : V) (found : Nat → Option (Table V)) (c : Core V) (view : Nat) (config : Table V) : Option (Core V × Option (Table V)) :=
  match c.views.lookup view with
  | none => some (c, none)
  | some b =>
    match found b with
    | none => some (c, none)
    | some changes => do
      let stored ← c.manager.buffers.lookup b
      if stored.toTable.lookup "autodetect_whitespace" ≠ some on then return (c, none)
      else
        let r := c.manager.tableForUpdate σ (.sysOverride b) changes
        let (m, out) ← r.1.setUserConfig σ (.sysOverride b) r.2
        let c := { c with manager := m }
        match out with
        | none => return (c, none)
        | some [] => return (c, none)
        | some [item] => return (c, some (insertAll config item.2))
        | some (_ :: _ :: _) => none

/-- The loop of `finalize_new_views`, tabs.rs:582-587, with `finish_init`, event_context.rs:395-426. -/
def Core.finalize (σ : Schema V) (on : V) (found : Nat → Option (Table V)) : List (Nat × Table V) → Core V → Option (Core V)
  | [], c => some c
  | (view, config) :: rest, c => do
    let (c, modified) ← c.detect σ on found view config
    let _ ← (← c.context view)
    Core.finalize σ on found rest (c.send view (modified.getD config))

/-- `CoreState::finalize_new_views`, tabs.rs:579-588. -/
def Core.idle (σ : Schema V) (on : V) (found : Nat → Option (Table V)) (c : Core V) : Option (Core V) :=
  Core.finalize σ on found c.pending { c with pending := [] }

/-- `CoreState::do_get_config`, tabs.rs:488-495; an unknown view is an error. -/
def Core.getConfig (c : Core V) (view : Nat) : Option (Table V) :=
  (c.views.lookup view).bind fun b => (c.manager.buffers.lookup b).map (·.toTable)

end Config

end Xi
