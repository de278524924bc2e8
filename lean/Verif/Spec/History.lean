import Verif.Rope.Engine
import Verif.Spec.Delta
import Verif.Spec.Mask

/-!
# Specification: documents as sequences of characters with a history

The abstract view of a document with undo: one sequence of characters, each of
which knows which edit inserted it and which edits deleted it.  What is visible
is decided by the set of undone groups alone.
-/

namespace Xi

/-- An edit, as the history of a character refers to it. -/
structure Lab where
  id : RevId
  group : Nat
deriving DecidableEq, Repr

/-- A character with its history.  `insBy = none` for characters that have been
there since before the recorded history. -/
structure Chr (α : Type) where
  val : α
  insBy : Option Lab
  delBy : List Lab
deriving DecidableEq, Repr

variable {α : Type}

namespace Chr

/-- Visible when the groups in `G` are undone: the inserting edit is not undone,
and every deleting edit is. -/
def visible (G : List Nat) (c : Chr α) : Bool :=
  (match c.insBy with
    | none => true
    | some a => !G.contains a.group) && c.delBy.all (fun d => G.contains d.group)

/-- The character was inserted by the edit `id`. -/
def insertedBy (id : RevId) (c : Chr α) : Bool := c.insBy.any (fun a => a.id == id)

/-- The character was deleted by the edit `id`. -/
def deletedBy (id : RevId) (c : Chr α) : Bool := c.delBy.any (fun d => d.id == id)

/-- Forget that the edit `id` deleted the character. -/
def undelete (id : RevId) (c : Chr α) : Chr α :=
  { c with delBy := c.delBy.filter (fun d => d.id != id) }

/-- Only the labels that satisfy `p`. -/
def keepLabs (p : Lab → Bool) (c : Chr α) : Chr α :=
  { c with insBy := c.insBy.filter p, delBy := c.delBy.filter p }

end Chr

/-- The document after the edits in `gone` have been made permanent: those in an
undone group never happened, the others can no longer be undone. -/
def collect (gone : Lab → Bool) (G : List Nat) (l : List (Chr α)) : List (Chr α) :=
  (l.filter (fun c => (c.keepLabs gone).visible G)).map (Chr.keepLabs (fun a => !gone a))

/-- The text that is visible when the groups in `G` are undone. -/
def visibleText (G : List Nat) (l : List (Chr α)) : List α :=
  (l.filter (Chr.visible G)).map Chr.val

/-! ### Combining an edit with a text it was not made for -/

/-- A character of the combined view of a base text, a head text that developed
from it, and an edit made against the base. -/
structure EditItem (α : Type) where
  val : α
  /-- in the text the edit was made against -/
  inBase : Bool
  /-- in the current text -/
  inHead : Bool
  /-- inserted by the edit -/
  isNew : Bool
  /-- deleted by the edit -/
  deleted : Bool
deriving DecidableEq, Repr

namespace EditItem

/-- The edit inserts new characters and deletes only what is in its base. -/
def Ok (x : EditItem α) : Prop :=
  (x.isNew = true → x.inBase = false ∧ x.inHead = false) ∧ (x.deleted = true → x.inBase = true)

/-- Visible in the base after the edit. -/
def afterBase (x : EditItem α) : Bool := x.isNew || (x.inBase && !x.deleted)

/-- Visible in the head after the edit. -/
def afterHead (x : EditItem α) : Bool := x.isNew || (x.inHead && !x.deleted)

end EditItem

/-- The characters that satisfy `p`. -/
def project (p : EditItem α → Bool) (items : List (EditItem α)) : List α :=
  (items.filter p).map EditItem.val

/-- `items` shows how the edit `d`, made against `base`, is combined with the
text `head`, giving `head'`. -/
structure Combines (d : Delta α) (base head head' : List α) (items : List (EditItem α)) : Prop where
  ok : ∀ x ∈ items, x.Ok
  isBase : project EditItem.inBase items = base
  isHead : project EditItem.inHead items = head
  /-- on the base, the edit does what it says -/
  onBase : project EditItem.afterBase items = d.result base
  onHead : project EditItem.afterHead items = head'

/-! ### Histories -/

/-- `gc` is used on undone groups, and on prefixes of the edits (editor.rs:106-107):
before a collected edit that is not undone and has inserted something, every
edit is collected too. -/
def GcOk (e : Engine α) (gcs : List Nat) : Prop :=
  ∀ pre r post, e.revs = pre ++ r :: post → post ≠ [] → ∀ p g ins del, r.edit = .edit p g ins del →
    gcs.contains g = true → e.undoneGroups.contains g = false → ins.isEmpty = false →
    ∀ r' ∈ pre, ∀ p' g' ins' del', r'.edit = .edit p' g' ins' del' → gcs.contains g' = true

/-- All operations of the engine that work on one document.  `gc` is used under
the condition that the editor documents (editor.rs:106-107). -/
inductive Engine.Reach (tok : RevId → Nat) : Engine α → Prop
  | empty {e} : Engine.empty = some e → Reach tok e
  | session {e e'} (s : Nat × Nat) : Engine.empty = some e → e.setSessionId s = some e' → Reach tok e'
  | edit {e e'} (p g t : Nat) (d : Delta α) : Reach tok e → d.WF →
      e.tryEditRev tok p g t d = some (.ok e') → Reach tok e'
  | undo {e e'} (groups : List Nat) : Reach tok e → e.undo groups = some e' → Reach tok e'
  | gc {e e'} (groups : List Nat) : Reach tok e → GcOk e groups → e.gc groups = some e' → Reach tok e'

/-- A sequence of edits and undos. -/
inductive Engine.Steps (tok : RevId → Nat) : Engine α → Engine α → Prop
  | refl (e) : Steps tok e e
  | edit {e e' e''} (p g t : Nat) (d : Delta α) : Steps tok e e' → d.WF →
      e'.tryEditRev tok p g t d = some (.ok e'') → Steps tok e e''
  | undo {e e' e''} (groups : List Nat) : Steps tok e e' → e'.undo groups = some e'' → Steps tok e e''

/-- A sequence of edits in the groups `S`, and of undos. -/
inductive Engine.StepsIn (tok : RevId → Nat) (S : List Nat) : Engine α → Engine α → Prop
  | refl (e) : StepsIn tok S e e
  | edit {e e' e''} (p g t : Nat) (d : Delta α) : StepsIn tok S e e' → g ∈ S → d.WF →
      e'.tryEditRev tok p g t d = some (.ok e'') → StepsIn tok S e e''
  | undo {e e' e''} (groups : List Nat) : StepsIn tok S e e' → e'.undo groups = some e'' → StepsIn tok S e e''

/-- A sequence of undo requests. -/
def Engine.undoAll (e : Engine α) (reqs : List (List Nat)) : Option (Engine α) :=
  reqs.foldlM Engine.undo e

/-- The character-level account `l'` of the document after the edit `d` of the
group `g`, with id `id`, has been made against the text `base`. -/
structure Records (id : RevId) (g : Nat) (d : Delta α) (base : List α) (l l' : List (Chr α)) : Prop where
  /-- what was there before is still there, in the same order -/
  old : (l'.filter (fun c => !c.insertedBy id)).map (Chr.undelete id) = l
  /-- inserted characters are known to be inserted by this edit -/
  new : ∀ c ∈ l', c.insertedBy id = true → c.insBy = some ⟨id, g⟩ ∧ c.delBy = []
  /-- so are deletions -/
  del : ∀ c ∈ l', ∀ x ∈ c.delBy, x.id = id → x = ⟨id, g⟩
  /-- insertions and deletions are those of the edit -/
  exact : ∃ items head head', Combines d base head head' items ∧
    items.map (fun x => (x.val, x.isNew, x.deleted)) =
      l'.map (fun c => (c.val, c.insertedBy id, c.deletedBy id))

/-- An edit with priority `p` of the session `s` ranks below one with priority `p'`
of the session `s'`. -/
def ranksBelow (p : Nat) (s : Nat × Nat) (p' : Nat) (s' : Nat × Nat) : Prop :=
  p < p' ∨ p = p' ∧ (s.1 < s'.1 ∨ s.1 = s'.1 ∧ s.2 < s'.2)

/-- The characters known after the edits in `S`, visible or not. -/
def knownTo (S : List RevId) (l : List (Chr α)) : List (Chr α) :=
  l.filter (fun c => c.insBy.all (fun a => S.contains a.id))

/-- The order of insertions at the same place.  The new edit, with priority `p` and
made against the revision with token `t`, meets every edit `q` made since then.
Where a character inserted by the one stands directly beside a character inserted by the
other, for those who know the edits up to `q` and the new one, the edit
that ranks below stands before. -/
def TieBreak (tok : RevId → Nat) (e : Engine α) (p t : Nat) (l' : List (Chr α)) : Prop :=
  ∀ pre b post, e.revs = pre ++ b :: post → tok b.revId = t → (∀ r ∈ post, tok r.revId ≠ t) →
  ∀ P q Q, post = P ++ q :: Q → ∀ p' g' i x, q.edit = .edit p' g' i x →
  ∀ u c c' v, knownTo ((pre ++ b :: P ++ [q]).map Revision.revId ++ [e.nextRevId]) l' = u ++ c :: c' :: v →
    (c.insertedBy e.nextRevId = true → c'.insertedBy q.revId = true →
      ranksBelow p e.session p' q.revId.sessionId) ∧
    (c.insertedBy q.revId = true → c'.insertedBy e.nextRevId = true →
      ¬ ranksBelow p e.session p' q.revId.sessionId)

end Xi
