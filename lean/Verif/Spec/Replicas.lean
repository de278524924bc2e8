import Verif.Spec.History

/-!
# Specification: replicas of a document

Two replicas of one document, or any number of them, each with its own session id,
which edit and merge each other's state in any order.
-/

namespace Xi

variable {α : Type}

/-- The edits a replica knows. -/
def Engine.knows (e : Engine α) : List RevId := e.revs.map Revision.revId

/-- The character has been inserted and not been deleted as far as the edits in
`S` are concerned. -/
def Chr.shown (S : List RevId) (c : Chr α) : Bool :=
  (match c.insBy with
    | none => true
    | some a => S.contains a.id) && c.delBy.all (fun d => !S.contains d.id)

/-- The text of a document for somebody who knows the edits in `S`. -/
def shownText (S : List RevId) (Z : List (Chr α)) : List α := (Z.filter (Chr.shown S)).map Chr.val

/-- Two replicas, starting from the same empty document. -/
inductive Replicas (tok : RevId → Nat) : Engine α → Engine α → Prop
  | start {e a b : Engine α} {sa sb : Nat × Nat} (he : Engine.empty = some e) (hs : sa ≠ sb)
      (ha : e.setSessionId sa = some a) (hb : e.setSessionId sb = some b) : Replicas tok a b
  | editLeft {a a' b : Engine α} (h : Replicas tok a b) (p g t : Nat) (d : Delta α) (hd : d.WF)
      (he : a.tryEditRev tok p g t d = some (.ok a')) : Replicas tok a' b
  | editRight {a b b' : Engine α} (h : Replicas tok a b) (p g t : Nat) (d : Delta α) (hd : d.WF)
      (he : b.tryEditRev tok p g t d = some (.ok b')) : Replicas tok a b'
  | mergeLeft {a a' b : Engine α} (h : Replicas tok a b) (hm : a.merge b = some a') : Replicas tok a' b
  | mergeRight {a b b' : Engine α} (h : Replicas tok a b) (hm : b.merge a = some b') : Replicas tok a b'

/-- What the history of `e` says about the document `Z`: every edit has inserted
and deleted as many characters as its revision records. -/
def CountsOf (Z : List (Chr α)) (e : Engine α) : Prop :=
  ∀ r ∈ e.revs, ∀ p g ins del, r.edit = .edit p g ins del →
    (Z.filter (Chr.insertedBy r.revId)).length = ins.len - ins.lenAfterDelete ∧
    (Z.filter (Chr.deletedBy r.revId)).length = del.len - del.lenAfterDelete

/-- The family `f` with `x` in place `i`. -/
def setAt {ι β : Type} [DecidableEq ι] (f : ι → β) (i : ι) (x : β) : ι → β := fun j => if j = i then x else f j

/-- Any number of replicas, starting from the same empty document, which edit and
merge each other's state in any order.  Every replica has priorities of its own:
`own p` is the session that edits with priority `p`. -/
inductive Network {ι : Type} [DecidableEq ι] (tok : RevId → Nat) (own : Nat → Nat × Nat) : (ι → Engine α) → Prop
  | start {e : Engine α} {es : ι → Engine α} {s : ι → Nat × Nat} (he : Engine.empty = some e)
      (hs : ∀ i j, s i = s j → i = j) (hes : ∀ i, e.setSessionId (s i) = some (es i)) : Network tok own es
  | edit {es : ι → Engine α} {e' : Engine α} (h : Network tok own es) (i : ι) (p g t : Nat) (d : Delta α) (hd : d.WF)
      (ho : own p = (es i).session) (he : (es i).tryEditRev tok p g t d = some (.ok e')) : Network tok own (setAt es i e')
  | merge {es : ι → Engine α} {e' : Engine α} (h : Network tok own es) (i j : ι) (hm : (es i).merge (es j) = some e') :
      Network tok own (setAt es i e')

end Xi
