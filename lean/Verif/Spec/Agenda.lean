import Verif.Core.Agenda

/-!
# What it means that work put off is not forgotten

The tokens are written here as sums; the code makes them with bit operations.
-/
namespace Xi.Agenda

/-- What is known of the parts of a view; `news s` says that something in `s` has changed that the front-end has not been told. -/
structure Laws (p : Parts S) (news : S → Bool) : Prop where
  /-- drawing tells the front-end everything, -/
  render_news : ∀ s, news (p.render s) = false
  /-- and neither wraps nor searches -/
  render_unwrapped : ∀ s, p.unwrapped (p.render s) = p.unwrapped s
  render_finding : ∀ s, p.finding (p.render s) = p.finding s
  /-- wrapping does not search, and makes no work for itself -/
  rewrap_finding : ∀ s, p.finding (p.rewrap s) = p.finding s
  rewrap_unwrapped : ∀ s, p.unwrapped (p.rewrap s) = true → p.unwrapped s = true
  /-- searching does not wrap -/
  find_unwrapped : ∀ s, p.unwrapped (p.find s) = p.unwrapped s
  /-- `set_dirty` is about drawing only -/
  setDirty_unwrapped : ∀ s, p.unwrapped (p.setDirty s) = p.unwrapped s
  setDirty_finding : ∀ s, p.finding (p.setDirty s) = p.finding s
  /-- a change of the text neither starts nor ends a search -/
  commit_finding : ∀ s s', p.commit s = some s' → p.finding s' = p.finding s

/-- No change of the text leaves lines to be wrapped, unless there were such lines before. -/
def CommitWraps (p : Parts S) : Prop := ∀ s s', p.commit s = some s' → p.unwrapped s' = true → p.unwrapped s = true

/-- `f` starts no search and ends none. -/
def SameFind (p : Parts S) (f : S → S) : Prop := ∀ s, p.finding (f s) = p.finding s

/-- `f` has nothing to do with wrapping. -/
def SameWrap (p : Parts S) (f : S → S) : Prop := ∀ s, p.unwrapped (f s) = p.unwrapped s

/-- A command does what a command of its kind does: only those for the view begin searches, only a new size makes lines to be
wrapped. -/
def Cmd.Tame (p : Parts S) : Cmd S → Prop
  | .view f => SameWrap p f
  | .buffer f => SameFind p f ∧ SameWrap p f
  | .resize size wrap => SameFind p size ∧ SameWrap p size ∧ ∀ f, wrap = some f → SameFind p f
  | .lines f => SameFind p f ∧ SameWrap p f
  | .other => True

/-- An event does what an event of its kind does. -/
def Event.Tame (p : Parts S) : Event S → Prop
  | .new _ st => p.finding st = false
  | .edit _ _ c => c.Tame p
  | .play _ _ cs => ∀ c ∈ cs, c.Tame p
  | .plugin _ _ f => SameFind p f ∧ SameWrap p f
  | .saved _ f => SameFind p f ∧ SameWrap p f
  | .config _ wrap => ∀ f, wrap = some f → SameFind p f
  | .reload _ _ f => SameFind p f ∧ SameWrap p f
  | .stopped _ layer => ∀ f, layer = some f → SameFind p f ∧ SameWrap p f
  | .theme _ f => SameFind p f ∧ SameWrap p f
  | .close _ => True
  | .watch => True
  | .fire _ => True

/-- A new view gets a number no open view has; the numbers are not too large. -/
def Event.NewNumber (c : Core S) : Event S → Prop
  | .new id _ => id < 2 ^ 25 ∧ ∀ e ∈ c.views, e.1 ≠ id
  | _ => True

/-- The core gets from `c` to `c'` by proper events, without a panic. -/
inductive Reaches (p : Parts S) : Core S → Core S → Prop
  | refl (c) : Reaches p c c
  | step {c c' c''} (e : Event S) : Reaches p c c' → e.Tame p → e.NewNumber c' → step p c' e = some c'' → Reaches p c c''

/-- Drawing view `id` is on the agenda. -/
def DrawDue (c : Core S) (id : Nat) : Prop := 2 ^ 25 + id ∈ c.agenda

/-- Wrapping view `id` is on the agenda. -/
def WrapDue (c : Core S) (id : Nat) : Prop := 2 ^ 26 + id ∈ c.agenda

/-- Searching in view `id` is on the agenda. -/
def FindDue (c : Core S) (id : Nat) : Prop := 2 ^ 27 + id ∈ c.agenda

/-- Setting up new views is on the agenda. -/
def NewDue (c : Core S) : Prop := 1001 ∈ c.agenda

/-- There is an end to the work: `todo` counts what is left to be wrapped and searched. -/
structure Progress (p : Parts S) (todo : S → Nat) : Prop where
  /-- a batch of wrapping, or of searching, is less to do -/
  rewrap_less : ∀ s, p.unwrapped s = true → todo (p.rewrap s) < todo s
  find_less : ∀ s, p.finding s = true → todo (p.find s) < todo s
  /-- with nothing to do, nothing is made -/
  rewrap_le : ∀ s, todo (p.rewrap s) ≤ todo s
  find_le : ∀ s, todo (p.find s) ≤ todo s
  find_still : ∀ s, p.finding s = false → p.finding (p.find s) = false
  render_le : ∀ s, todo (p.render s) ≤ todo s
  setDirty_le : ∀ s, todo (p.setDirty s) ≤ todo s

/-- One more token is handed back, and nothing else happens. -/
def Idles (p : Parts S) (c' c : Core S) : Prop := ∃ i, i < c.agenda.length ∧ step p c (.fire i) = some c'

end Xi.Agenda
