import Verif.Lsp.Sync

/-!
# Model of `rust/lsp-lib/src/lsp_plugin.rs`, `language_server_client.rs` and `result_queue.rs`

The hash maps are functions, and the numbers have no bound.  A handler holds the lock of the client it uses, and is one step here.  That is a simplification
for hovers: `push_result` and `schedule_idle` (lsp_plugin.rs:171-172) of two servers can interleave, since the queue of results is shared by all clients.
Servers start when they are asked to (`start_new_server` panics if one does not, utils.rs:165-170), and writing to them succeeds
(language_server_client.rs:85-89).  A panic is `none`.  Left out: the JSON of messages, status items and notifications of the server, the conversion of
the range of a hover, and the failures of `get_document` (lsp_plugin.rs:91 and 108) and `Url::from_file_path` (134).  The plugin never sends the `initialized`
notification that the protocol asks for; there is no such message in the source.
-/

namespace Xi.Lsp

/-- `HashMap::insert` and `HashMap::remove`. -/
def setAt {K V : Type} [DecidableEq K] (f : K → Option V) (k : K) (v : Option V) : K → Option V := fun x => if x = k then v else f x

/-- What the plugin sends to a server, language_server_client.rs:183-278. -/
inductive ToServer where
  | initialize (id : Nat)
  | didOpen (uri language : String) (version : Nat) (text : List UInt8)
  | didChange (uri : String) (version : Nat) (changes : List Change)
  | didSave (uri : String)
  | didClose (uri : String)
  | hover (id : Nat) (uri : String) (position : Position)

/-- The callbacks of the two kinds of requests: lsp_plugin.rs:137-148 and 163-173. -/
inductive Callback where
  | init (view : Nat) (uri : String) (text : List UInt8)
  | hover (view request : Nat)

/-- `LanguageServerClient`, language_server_client.rs:31-44, made by `new` in 63-83; of the capabilities there is only the kind of sync (`none` if there is no such `Kind`). -/
structure Client where
  language : String
  pending : Nat → Option Callback := fun _ => none
  nextId : Nat := 1
  initialized : Bool := false
  sync : Option SyncKind := none
  opened : Nat → Option String := fun _ => none

/-- `LspPlugin`, lsp_plugin.rs:33-45, with the views of the `Dispatcher` (plugin-lib/src/dispatch.rs:59) and `ResultQueue` (result_queue.rs:20): `info` is `view_info`, version and identifier. -/
structure LspPlugin (H : Type) where
  views : Nat → Bool := fun _ => false
  info : Nat → Option (Nat × String) := fun _ => none
  clients : String → Option Client := fun _ => none
  results : List (Nat × H) := []

/-- What a handler does besides changing the plugin: messages to servers, idle calls it asks for, and hovers it shows (view, request, result). -/
structure Out (H : Type) where
  sent : List (String × ToServer) := []
  idles : List Nat := []
  shown : List (Nat × Nat × H) := []

/-- A view as the plugin finds it: `language` by its extension (lsp_plugin.rs:264-276), `root` by its workspace (lsp_plugin.rs:117-125, utils.rs:130-152). -/
structure NewView where
  view : Nat
  uri : String
  language : Option String
  root : Option String
  singleFile : Bool
  text : List UInt8

/-- An answer of a server to a request. -/
inductive Answer (H : Type) where
  | capabilities (sync : Option SyncKind)
  | hover (h : H)
  | error (h : H)

variable {H : Type}

/-- `send_request`, language_server_client.rs:157-164: the number and the client. -/
def Client.request (c : Client) (cb : Callback) : Nat × Client := (c.nextId, { c with pending := setAt c.pending c.nextId (some cb), nextId := c.nextId + 1 })

/-- `get_sync_kind`, language_server_client.rs:285-290. -/
def Client.syncKind (c : Client) : SyncKind := c.sync.getD .full

/-- The identifier of the server for a view, lsp_plugin.rs:208-220. -/
def NewView.identifier (n : NewView) : Option String := n.root.or (if n.singleFile then some "generic" else none)

/-- `get_lsclient_from_workspace_root`, lsp_plugin.rs:221-258. -/
def LspPlugin.clientFor (p : LspPlugin H) (language identifier : String) : Client := (p.clients identifier).getD { language := language }

/-- `new_view`, lsp_plugin.rs:105-154, and `do_new_buffer`, dispatch.rs:114-124. -/
def LspPlugin.newView (p : LspPlugin H) (n : NewView) : LspPlugin H × Out H :=
  let p := { p with views := fun v => v = n.view || p.views v }
  match n.language, n.identifier with
  | some language, some identifier =>
    let c := p.clientFor language identifier
    let p := { p with info := setAt p.info n.view (some (0, identifier)) }
    if c.initialized then
      ({ p with clients := setAt p.clients identifier (some { c with opened := setAt c.opened n.view (some n.uri) }) },
        { sent := [(identifier, .didOpen n.uri c.language 0 n.text)] })
    else
      let r := c.request (.init n.view n.uri n.text)
      ({ p with clients := setAt p.clients identifier (some r.2) }, { sent := [(identifier, .initialize r.1)] })
  | _, _ => (p, {})

/-- `update`, lsp_plugin.rs:66-86, and `do_update`, dispatch.rs:156-173; `changes` is `get_change_for_sync_kind` (`changeForSyncKind`). -/
def LspPlugin.update (p : LspPlugin H) (v : Nat) (changes : SyncKind → Option (Option (List Change))) : Option (LspPlugin H × Out H) :=
  if p.views v then
    match p.info v with
    | none => some (p, {})
    | some (version, identifier) => do
      let c ← p.clients identifier
      let p := { p with info := setAt p.info v (some (version + 1, identifier)) }
      match ← changes c.syncKind with
      | none => return (p, {})
      | some l =>
        let uri ← c.opened v
        return (p, { sent := [(identifier, .didChange uri (version + 1) l)] })
  else some (p, {})

/-- `did_save`, lsp_plugin.rs:88-95, and `do_did_save`, dispatch.rs:85-90. -/
def LspPlugin.didSave (p : LspPlugin H) (v : Nat) : Option (LspPlugin H × Out H) :=
  if p.views v then
    match p.info v with
    | none => some (p, {})
    | some (_, identifier) => do
      let c ← p.clients identifier
      let uri ← c.opened v
      return (p, { sent := [(identifier, .didSave uri)] })
  else some (p, {})

/-- `did_close`, lsp_plugin.rs:97-103, and `do_close`, dispatch.rs:126-132; `view_info` is left as it is. -/
def LspPlugin.didClose (p : LspPlugin H) (v : Nat) : Option (LspPlugin H × Out H) :=
  if p.views v then
    let p := { p with views := fun w => w ≠ v && p.views w }
    match p.info v with
    | none => some (p, {})
    | some (_, identifier) => do
      let c ← p.clients identifier
      let uri ← c.opened v
      return ({ p with clients := setAt p.clients identifier (some { c with opened := setAt c.opened v none }) }, { sent := [(identifier, .didClose uri)] })
  else some (p, {})

/-- `get_hover`, lsp_plugin.rs:158-179, and `do_get_hover`, dispatch.rs:139-142; `position` is `get_position_of_offset`, and `failed` the result if that is an error. -/
def LspPlugin.getHover (failed : H) (p : LspPlugin H) (v request : Nat) (position : Option Position) : Option (LspPlugin H × Out H) :=
  if p.views v then
    match p.info v with
    | none => some (p, {})
    | some (_, identifier) => do
      let c ← p.clients identifier
      match position with
      | some position =>
        let uri ← c.opened v
        let r := c.request (.hover v request)
        return ({ p with clients := setAt p.clients identifier (some r.2) }, { sent := [(identifier, .hover r.1 uri position)] })
      | none => return ({ p with results := p.results ++ [(request, failed)] }, { idles := [v] })
  else some (p, {})

/-- `idle`, lsp_plugin.rs:181-194, and dispatch.rs:224-229. -/
def LspPlugin.idle (p : LspPlugin H) (v : Nat) : Option (LspPlugin H × Out H) :=
  if p.views v then
    match p.results with
    | [] => some (p, {})
    | (request, h) :: rest =>
      match p.info v with
      | none => some ({ p with results := rest }, {})
      | some (_, identifier) => do
        let _ ← p.clients identifier
        return ({ p with results := rest }, { shown := [(v, request, h)] })
  else some (p, {})

/-- `handle_response`, language_server_client.rs:111-117, with the callbacks.  The wrong kind of answer panics in them (`from_value(…).unwrap()`). -/
def LspPlugin.answer (p : LspPlugin H) (identifier : String) (id : Nat) (a : Answer H) : Option (LspPlugin H × Out H) := do
  let c ← p.clients identifier
  let cb ← c.pending id
  let c := { c with pending := setAt c.pending id none }
  match cb, a with
  | .init view uri text, .capabilities sync =>
    return ({ p with clients := setAt p.clients identifier (some { c with sync := sync, initialized := true, opened := setAt c.opened view (some uri) }) },
      { sent := [(identifier, .didOpen uri c.language 0 text)] })
  | .init _ _ _, .error _ => return ({ p with clients := setAt p.clients identifier (some c) }, {})
  | .hover view request, .hover h => return ({ p with clients := setAt p.clients identifier (some c), results := p.results ++ [(request, h)] }, { idles := [view] })
  | .hover view request, .error h => return ({ p with clients := setAt p.clients identifier (some c), results := p.results ++ [(request, h)] }, { idles := [view] })
  | _, _ => none

end Xi.Lsp
