import Verif.Spec.Find
import Verif.Spec.Lsp
import Verif.Lsp.Plugin

/-!
# A session of the plugin with its servers
-/

namespace Xi.Lsp

open Find

/-! ## What a server makes of what it is sent -/

/-- What a server does with a change (`Applies`). -/
def applyOne (doc : List Char) (change : Change) : List Char :=
  match change.range with
  | none => chars change.text
  | some (s, e) => doc.take (locate doc s.line s.character) ++ chars change.text ++ doc.drop (locate doc e.line e.character)

/-- A server: whether it was asked to initialise, whether it has answered, and its documents with their versions. -/
structure Server where
  asked : Bool := false
  ready : Bool := false
  docs : String → Option (List Char × Nat) := fun _ => none

/-- What a server does with a message; `none` if the protocol does not allow the message. -/
def Server.take (s : Server) : ToServer → Option Server
  | .initialize _ => if s.asked then none else some { s with asked := true }
  | .didOpen uri _ version text =>
    if s.ready = true ∧ s.docs uri = none then some { s with docs := setAt s.docs uri (some (chars text, version)) } else none
  | .didChange uri version changes =>
    match s.docs uri with
    | none => none
    | some (doc, old) => if s.ready = true ∧ old < version then some { s with docs := setAt s.docs uri (some (changes.foldl applyOne doc, version)) } else none
  | .didSave uri => if s.ready = true ∧ (s.docs uri).isSome then some s else none
  | .didClose uri => if s.ready = true ∧ (s.docs uri).isSome then some { s with docs := setAt s.docs uri none } else none
  | .hover _ uri _ => if s.ready = true ∧ (s.docs uri).isSome then some s else none

/-- The servers take what is sent to them, in order. -/
def takeAll (servers : String → Server) : List (String × ToServer) → Option (String → Server)
  | [] => some servers
  | (i, m) :: rest => do
    let s ← (servers i).take m
    takeAll (fun j => if j = i then s else servers j) rest

variable {H : Type}

/-! ## Sessions -/

/-- What happens, one after the other.  For an update, the text is the one after it. -/
inductive Event (H : Type) where
  | newView (n : NewView) (text : List Char)
  | update (v : Nat) (changes : SyncKind → Option (Option (List Change))) (text : List Char)
  | save (v : Nat)
  | close (v : Nat)
  | hover (v request : Nat) (position : Option Position)
  | idle
  | answer (identifier : String) (id : Nat) (a : Answer H)

/-- The plugin, its servers, the texts of the open views, the views there have been, the idle calls that wait, the hovers asked for, and those shown. -/
structure Session (H : Type) where
  plugin : LspPlugin H := {}
  servers : String → Server := fun _ => {}
  texts : Nat → Option (List Char) := fun _ => none
  used : List Nat := []
  idles : List Nat := []
  asked : List (Nat × Nat) := []
  shown : List (Nat × Nat × H) := []

/-- What a handler did becomes part of the session. -/
def Session.after (s : Session H) (r : LspPlugin H × Out H) : Option (Session H) := do
  let servers ← takeAll s.servers r.2.sent
  return { s with plugin := r.1, servers := servers, idles := s.idles ++ r.2.idles, shown := s.shown ++ r.2.shown }

/-- One event; `none` if the plugin panics, or sends what the protocol does not allow. -/
def Session.step (failed : H) (s : Session H) : Event H → Option (Session H)
  | .newView n text => Session.after { s with texts := setAt s.texts n.view (some text), used := n.view :: s.used } (s.plugin.newView n)
  | .update v changes text => do Session.after { s with texts := setAt s.texts v (some text) } (← s.plugin.update v changes)
  | .save v => do s.after (← s.plugin.didSave v)
  | .close v => do Session.after { s with texts := setAt s.texts v none } (← s.plugin.didClose v)
  | .hover v request position => do Session.after { s with asked := (v, request) :: s.asked } (← s.plugin.getHover failed v request position)
  | .idle => match s.idles with
    | [] => some s
    | v :: rest => do Session.after { s with idles := rest } (← s.plugin.idle v)
  | .answer identifier id a => do
    let servers := match a with
      | .capabilities _ => fun j => if j = identifier then { s.servers j with ready := true } else s.servers j
      | _ => s.servers
    Session.after { s with servers := servers } (← s.plugin.answer identifier id a)

/-- If the view has a server, that server has the document of the view open. -/
def Session.Settled (s : Session H) (v : Nat) : Prop :=
  ∀ version i, s.plugin.info v = some (version, i) → ∃ c uri, s.plugin.clients i = some c ∧ c.opened v = some uri

/-- What is assumed of an event.  A new view has a new number, its document is not open at its server, and its server is new or initialised.  The other
events of views are those of open, settled views.  The changes are those of C74.  No hover is under way for a view that is closed.  A server answers its requests, each once,
and initialises without an error. -/
def Session.Ok (s : Session H) : Event H → Prop
  | .newView n text => n.view ∉ s.used ∧ n.text = enc text ∧
      ∀ i c, n.identifier = some i → s.plugin.clients i = some c → c.initialized = true ∧ ∀ w, c.opened w ≠ some n.uri
  | .update v changes text => s.Settled v ∧ ∃ old, s.texts v = some old ∧ ∀ version i c, s.plugin.info v = some (version, i) → s.plugin.clients i = some c →
      (c.syncKind = .none → changes .none = some none) ∧ (c.syncKind ≠ .none → ∃ l, changes c.syncKind = some (some l) ∧ AppliesAll old l text)
  | .save v => s.Settled v ∧ (s.texts v).isSome
  | .close v => s.Settled v ∧ (s.texts v).isSome ∧ v ∉ s.idles ∧
      ∀ i c id request, s.plugin.clients i = some c → c.pending id ≠ some (.hover v request)
  | .hover v _ _ => s.Settled v ∧ (s.texts v).isSome
  | .idle => True
  | .answer i id a => ∃ c cb, s.plugin.clients i = some c ∧ c.pending id = some cb ∧
      match cb, a with
      | .init _ _ _, .capabilities _ => True
      | .hover _ _, .hover _ => True
      | .hover _ _, .error _ => True
      | _, _ => False

/-- The sessions of such events. -/
inductive Reach (failed : H) : Session H → Prop
  | start : Reach failed {}
  | step {s s' : Session H} {e : Event H} : Reach failed s → s.Ok e → s.step failed e = some s' → Reach failed s'

end Xi.Lsp
