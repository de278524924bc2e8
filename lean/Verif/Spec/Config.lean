import Verif.Config.Manager

/-!
# What the settings of a buffer should be

Settings as functions from keys to values, without tables, stacks and caches.
-/

namespace Xi

namespace Config

variable {V : Type} [DecidableEq V]

/-- The settings of one layer. -/
abbrev Settings (V : Type) := String → Option V

/-- What has been set, and the languages of the buffers. -/
structure World (V : Type) where
  /-- built in -/
  defaults : Settings V
  /-- set by the user, or for one buffer by the system -/
  user : Domain → Settings V
  /-- the languages there are, with what their plugins set -/
  langs : String → Option (Settings V)
  /-- the language for an extension of a file -/
  ext : String → Option String
  /-- the buffers, each with its language: the detected one, and the one chosen by the user -/
  tags : Nat → Option (String × Option String)

/-- The language of a buffer, if there is such a language. -/
def World.language (w : World V) (id : Nat) : Option String :=
  match w.tags id with
  | none => none
  | some (detected, chosen) =>
    let name := chosen.getD detected
    if (w.langs name).isSome then some name else none

/-- The layers for a buffer, the most important one first. -/
def World.layers (w : World V) (id : Nat) : List (Settings V) :=
  [w.user (.userOverride id), w.user (.sysOverride id)]
    ++ (match w.language id with
      | some n => [w.user (.language n), (w.langs n).getD fun _ => none]
      | none => [])
    ++ [w.user .general, w.defaults]

/-- A setting of a buffer: the value in the most important layer that has one. -/
def World.value (w : World V) (id : Nat) (k : String) : Option V := (w.layers id).findSome? (· k)

/-- A table replaces what the user had set in a domain. -/
def World.setUser (w : World V) (domain : Domain) (t : Settings V) : World V :=
  { w with user := fun d => if d = domain then t else w.user d }

/-- Changes to what the user had set: null removes a setting. -/
def World.modified (null : V) (old changes : Settings V) : Settings V := fun k =>
  match changes k with
  | none => old k
  | some v => if v = null then none else some v

/-- A buffer gets a language. -/
def World.setTag (w : World V) (id : Nat) (tag : Option (String × Option String)) : World V :=
  { w with tags := fun i => if i = id then tag else w.tags i }

/-- Whether a table is acceptable: with its values other than null over the built-in ones, every field has an acceptable value. -/
def World.Accepts (σ : Schema V) (w : World V) (t : Settings V) : Prop :=
  ∀ k ∈ σ.fields, ∃ v, (((t k).filter (· ≠ σ.null)).or (w.defaults k)) = some v ∧ σ.ok k v = true

open Classical in
/-- A file with settings of the user, if there is one, replaces the old ones if it is acceptable. -/
noncomputable def World.fromFile (σ : Schema V) (w : World V) (file : Option (Settings V)) (old : Settings V) : Settings V :=
  match file with
  | some t => if w.Accepts σ t then t else old
  | none => old

open Classical in
/-- New languages: of several definitions for a name or an extension the last one counts.  The files of the new languages are
read. -/
noncomputable def World.setLanguages (σ : Schema V) (w : World V) (defs : List (LanguageDef V)) (files : String → Option (Settings V)) : World V :=
  { w with
    langs := fun n => (defs.reverse.find? (·.name = n)).map fun d k => (d.defaults.getD []).lookup k
    ext := fun e => (defs.reverse.find? (e ∈ ·.extensions)).map (·.name)
    user := fun d => match d with
      | .language n =>
        if ∃ l ∈ defs, l.name = n then w.fromFile σ (files n) (w.user d) else w.user d
      | d => w.user d }

/-- The changes from the settings `f` to the settings `g`: the new value of every setting that is different.  Settings that
are gone are not there. -/
def Reports (f g : Settings V) (c : Option (Table V)) : Prop :=
  (∀ k, (c.getD []).lookup k = if f k = g k then none else g k) ∧ c ≠ some []

/-- All layers have acceptable values, and the built-in one has all fields. -/
structure World.Valid (σ : Schema V) (w : World V) : Prop where
  defaults : ∀ k ∈ σ.fields, ∃ v, w.defaults k = some v ∧ σ.ok k v = true
  user : ∀ k ∈ σ.fields, ∀ d v, w.user d k = some v → σ.ok k v = true
  langs : ∀ k ∈ σ.fields, ∀ n s v, w.langs n = some s → s k = some v → σ.ok k v = true

end Config

end Xi
