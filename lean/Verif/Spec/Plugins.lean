import Verif.Core.Plugins
/-!
# What is true of running plugins

What plugins and the front end have been told is read off the messages alone.
-/

namespace Xi

namespace Plugins

/-- The core can go from one state to another by operations, each of which is allowed in the state in which it happens. -/
inductive Run (ok : Core → Op → Prop) (s : Core) : Core → Prop
  | refl : Run ok s s
  | step (t u : Core) (op : Op) : Run ok s t → ok t op → t.step op = some u → Run ok s u

/-- Anything may happen. -/
def Any : Core → Op → Prop := fun _ _ => True

/-- A core that has only read its catalog, in which names are distinct. -/
def Fresh (s : Core) : Prop :=
  s.running = [] ∧ s.launching = [] ∧ s.views = [] ∧ s.pending = [] ∧ s.sent = [] ∧ s.client = [] ∧ (s.catalog.map Desc.name).Nodup

/-- The messages to one plugin. -/
def heard (s : Core) (id : Nat) : List ToPlugin := s.sent.filterMap (fun m => if m.1 = id then some m.2 else none)

/-- What a plugin that has got one more message knows to be open. -/
def hear (known : List Nat) : ToPlugin → List Nat
  | .initialize views => known ++ views
  | .newBuffer view => known ++ [view]
  | .didClose view => known.filter (· ≠ view)
  | .shutdown => known
  | .command _ => known

/-- The views that a plugin knows to be open, each as often as it was told. -/
def knows (messages : List ToPlugin) : List Nat := messages.foldl hear []

/-- The plugins that the front end takes to be running in a view, after one more message. -/
def learn (view : Nat) (names : List (List Char)) : ToClient → List (List Char)
  | .started v name => if v = view then names ++ [name] else names
  | .stopped v name => if v = view then names.filter (· ≠ name) else names
  | .available v running => if v = view then running else names
  | .statusItem _ _ => names

/-- The plugins that the front end takes to be running in a view. -/
def picture (view : Nat) (messages : List ToClient) : List (List Char) := messages.foldl (learn view) []

/-- Plugins connect only when all views have been finished. -/
def Settled (s : Core) : Op → Prop
  | .connect _ true => s.pending = []
  | _ => True

/-- Only running plugins send notifications. -/
def Alive (s : Core) : Op → Prop
  | .notification id _ _ => id ∈ s.running.map Proc.id
  | _ => True

/-- Nothing is started that is being launched. -/
def Patient (s : Core) : Op → Prop
  | .start name => name ∉ s.launching.map Proc.name
  | .fsEvent _ => s.launching = []
  | _ => True

/-- Plugins connect only when no view has been finished, nothing is started that is being launched, and the directory of the plugins does not change. -/
def Early (s : Core) : Op → Prop
  | .start name => name ∉ s.launching.map Proc.name
  | .connect _ true => ∀ v ∈ s.views, v.id ∈ s.pending
  | .fsEvent _ => False
  | _ => True

/-- Views are not closed before they are finished, only running plugins ask for status items, and all paths are text. -/
def Sound (s : Core) : Op → Prop
  | .closeView view => view ∉ s.pending
  | .notification id _ .statusItem => id ∈ s.running.map Proc.id
  | .fsEvent (.changed path found) => path.isSome ∧ ∀ d ∈ found, d.execPath.isSome
  | .fsEvent (.removed path _) => path.isSome
  | .fsEvent (.renamed old new found) => old.isSome ∧ new.isSome ∧ ∀ d ∈ found, d.execPath.isSome
  | .fsEvent (.metadata path) => path.isSome
  | _ => True

end Plugins

end Xi
