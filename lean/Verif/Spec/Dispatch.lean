import Verif.Plugin.Dispatch

/-!
# What a plugin has been told about a view, for C108

The history of a view is a list of what was said about it, the latest first.  A setting, the path, the language, the revision, the size and the undo group are
each what was last said since the view was opened.
-/

namespace Xi

namespace Dispatch

variable {J Cfg : Type}

/-- What can be said about one view. -/
inductive Said (J : Type) where
  | opened (info : Info J)
  | saved (path : String)
  | settings (changes : Table J)
  | language (name : String)
  | closed
  | updated (size rev : Nat) (undoGroup : Option Nat)

/-- What a message says about the view `v`, the earliest first. -/
def saidOf (v : Nat) : Msg J → List (Said J)
  | .start _ infos => (infos.filter fun i => i.views = [v]).map .opened
  | .newBuffer infos => (infos.filter fun i => i.views = [v]).map .opened
  | .didSave w path => if w = v then [.saved path] else []
  | .configChanged w changes => if w = v then [.settings changes] else []
  | .languageChanged w name => if w = v then [.language name] else []
  | .didClose w => if w = v then [.closed] else []
  | .update w size rev undoGroup => if w = v then [.updated size rev undoGroup] else []
  | .ask _ => []

/-- All that was said about `v`, the latest first. -/
def history (v : Nat) (msgs : List (Msg J)) : List (Said J) := (msgs.flatMap (saidOf v)).reverse

/-- If the view is open: how it was opened, and what was said since, the latest first. -/
def sinceOpen : List (Said J) → Option (Info J × List (Said J))
  | [] => none
  | .closed :: _ => none
  | .opened info :: _ => some (info, [])
  | e :: es => (sinceOpen es).map fun r => (r.1, e :: r.2)

/-- What is said about the path. -/
def Said.path? : Said J → Option String
  | .saved path => some path
  | _ => none

/-- What is said about the language. -/
def Said.language? : Said J → Option String
  | .language name => some name
  | _ => none

/-- What is said about the size, the revision and the undo group. -/
def Said.update? : Said J → Option (Nat × Nat × Option Nat)
  | .updated size rev undoGroup => some (size, rev, undoGroup)
  | _ => none

/-- What is said about the setting `k`; a key that comes twice has its last value. -/
def Said.setting? (k : String) : Said J → Option J
  | .settings changes => changes.reverse.lookup k
  | _ => none

/-- The view `v` is what was said since it was opened. -/
structure Mirrors (decode : Table J → Option Cfg) (id : Nat) (v : View J Cfg) (info : Info J) (since : List (Said J)) : Prop where
  id : v.id = id
  path : v.path = ((since.findSome? Said.path?).map some).getD info.path
  language : v.language = (since.findSome? Said.language?).getD info.syntax_
  update : (v.bufSize, v.rev, v.undoGroup) = (since.findSome? Said.update?).getD (info.bufSize, info.rev, none)
  settings : ∀ k, v.table.lookup k = (since.findSome? (Said.setting? k)).or (info.config.lookup k)
  config : decode v.table = some v.config

/-- The plugin's views are those that were opened and not closed, and each is what was said about it. -/
def Faithful (decode : Table J → Option Cfg) (views : List (Nat × View J Cfg)) (hist : Nat → List (Said J)) : Prop :=
  ∀ id, match sinceOpen (hist id) with
    | none => views.lookup id = none
    | some (info, since) => ∃ v, views.lookup id = some v ∧ Mirrors decode id v info since

/-- What the plugin hears at a message, and what the core is answered, if its views were `views` and are `views'` afterwards: the view as it is afterwards with
what was there before.  Of a view that closes and at a change of settings it hears the view as it was. -/
def Heard (decode : Table J → Option Cfg) (pid : Option Nat) (views views' : List (Nat × View J Cfg)) : Msg J → List (Call J Cfg) → Prop
  | .start plugin infos, calls => ∃ vs : List (View J Cfg), calls = .initialized plugin :: vs.map .newView ∧ vs.length = infos.length ∧
      ∀ p ∈ infos.zip vs, p.1.views = [p.2.id] ∧ p.2.plugin = plugin ∧ Mirrors decode p.2.id p.2 p.1 []
  | .newBuffer infos, calls => ∃ vs : List (View J Cfg), calls = vs.map .newView ∧ vs.length = infos.length ∧
      ∀ p ∈ infos.zip vs, p.1.views = [p.2.id] ∧ pid = some p.2.plugin ∧ Mirrors decode p.2.id p.2 p.1 []
  | .didSave id _, calls => (views.lookup id = none ∧ calls = []) ∨
      ∃ old new, views.lookup id = some old ∧ views'.lookup id = some new ∧ calls = [.didSave new old.path]
  | .configChanged id changes, calls => (views.lookup id = none ∧ calls = []) ∨ ∃ old, views.lookup id = some old ∧ calls = [.configChanged old changes]
  | .languageChanged id _, calls => (views.lookup id = none ∧ calls = []) ∨
      ∃ old new, views.lookup id = some old ∧ views'.lookup id = some new ∧ calls = [.languageChanged new old.language]
  | .didClose id, calls => (views.lookup id = none ∧ calls = []) ∨ ∃ old, views.lookup id = some old ∧ calls = [.didClose old]
  | .update id _ _ _, calls => (views.lookup id = none ∧ calls = [.error 404]) ∨
      ∃ new, views.lookup id ≠ none ∧ views'.lookup id = some new ∧ calls = [.update new, .answer 1]
  | .ask id, calls => (views.lookup id = none ∧ calls = []) ∨ ∃ v, views.lookup id = some v ∧ calls = [.ask v]

/-- The messages at which the library panics. -/
def Panics (decode : Table J → Option Cfg) (d : Dispatcher J Cfg) : Msg J → Prop
  | .start _ infos => d.pid ≠ none ∨ ∃ i ∈ infos, ¬ (i.views.length = 1 ∧ decode i.config ≠ none)
  | .newBuffer infos => d.pid = none ∨ ∃ i ∈ infos, ¬ (i.views.length = 1 ∧ decode i.config ≠ none)
  | .configChanged id changes => ∃ v t, d.views.lookup id = some v ∧ (∀ k, t.lookup k = (changes.reverse.lookup k).or (v.table.lookup k)) ∧ decode t = none
  | _ => False

/-- All views are of this plugin. -/
def OfPlugin (d : Dispatcher J Cfg) : Prop := ∀ id v, d.views.lookup id = some v → d.pid = some v.plugin

/-- A table in which each of the keys that are needed has a value that will do. -/
def Complete (need : List String) (ok : String → J → Prop) (t : Table J) : Prop := ∀ k ∈ need, ∃ j, t.lookup k = some j ∧ ok k j

/-- A message that says nothing wrong: one view for each buffer, all settings that are needed, and only values that will do. -/
def Msg.Fine (need : List String) (ok : String → J → Prop) : Msg J → Prop
  | .start _ infos => ∀ i ∈ infos, i.views.length = 1 ∧ Complete need ok i.config
  | .newBuffer infos => ∀ i ∈ infos, i.views.length = 1 ∧ Complete need ok i.config
  | .configChanged _ changes => ∀ e ∈ changes, e.1 ∈ need → ok e.1 e.2
  | _ => True

end Dispatch

end Xi
