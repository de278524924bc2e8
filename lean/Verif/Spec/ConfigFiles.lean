import Verif.Config.Files
import Verif.Spec.Config

/-!
# What it means that the settings are those of the files
-/

namespace Xi

namespace Config

variable {V : Type} [DecidableEq V]

/-- The name of the file with the settings of a domain. -/
def homeName : Domain → Option (List Char)
  | .general => some "preferences.xiconfig".toList
  | .language n => some (n.toList ++ ".xiconfig".toList)
  | _ => none

/-- The domains with a file of their own: the general one, and those of the languages there are, if the name can be the name of a
file that is not that of the general settings. -/
def HasFile (w : World V) : Domain → Prop
  | .general => True
  | .language n => (w.langs n).isSome = true ∧ n ≠ "preferences" ∧ n ≠ "" ∧ '/' ∉ n.toList
  | _ => False

/-- The settings in a file; none if it is not there. -/
def settingsIn (files : Files V) (p : FilePath) : Settings V := fun k => ((files p).join.getD []).lookup k

/-- Something happens to the files, or the editor looks at the next event. -/
inductive FileStep (V : Type) where
  | write (p : FilePath) (t : Table V)
  | remove (p : FilePath)
  | rename (old new : FilePath)
  | handle

/-- The files, the events that are still to come, and the editor's settings. -/
structure FileState (V : Type) where
  files : Files V
  events : List FileEvent
  manager : Manager V

/-- One step.  Nothing happens to a file that is not there. -/
def FileState.step (σ : Schema V) (s : FileState V) : FileStep V → Option (FileState V)
  | .write p t => some { s with files := fun q => if q = p then some (some t) else s.files q, events := s.events ++ [.written p] }
  | .remove p =>
    if (s.files p).isSome then some { s with files := fun q => if q = p then none else s.files q, events := s.events ++ [.removed p] } else some s
  | .rename old new =>
    if (s.files old).isSome ∧ old ≠ new then
      some { s with files := fun q => if q = new then s.files old else if q = old then none else s.files q, events := s.events ++ [.renamed old new] }
    else some s
  | .handle =>
    match s.events with
    | [] => some s
    | e :: rest => (s.manager.handleFileEvent σ s.files e).map fun r => { s with events := rest, manager := r.1 }

/-- Whether an event is about a file. -/
def FileEvent.About (p : FilePath) : FileEvent → Prop
  | .written q => q = p
  | .removed q => q = p
  | .renamed old new => old = p ∨ new = p
  | .other => False

/-- The tables a user may write: every key once, no null for a field, acceptable. -/
def Writable (σ : Schema V) (t : Table V) : Prop :=
  (t.map (·.1)).Nodup ∧ ∀ k ∈ σ.fields, ∀ v, t.lookup k = some v → v ≠ σ.null ∧ σ.ok k v = true

end Config

end Xi
