import Verif.Rope.Delta

/-!
# Model of `rust/rope/src/engine.rs`

* Texts (`Rope`) are lists over an arbitrary element type `α`.
* A Rust panic is `none`.  `Result` is `Except`.
* `BTreeSet<usize>` is `List Nat`; only membership and the least element are
  ever used by the code, so the list order and repetitions do not matter.
* Machine integers (`u32` counters, `usize` groups) are natural numbers.
* The token of a revision id is a hash of it (engine.rs:173-180).  The functions
  that look revisions up by token take the hash function `tok` as a parameter.
* The serialisation helpers and `Display` are not modelled.
-/

namespace Xi

variable {α : Type}

/-- `struct RevId`, engine.rs:80-90. -/
structure RevId where
  session1 : Nat
  session2 : Nat
  num : Nat
deriving DecidableEq, Repr

/-- `RevId::session_id`, engine.rs:182-184. -/
def RevId.sessionId (r : RevId) : Nat × Nat := (r.session1, r.session2)

/-- `enum Contents`, engine.rs:131-157. -/
inductive Contents where
  | edit (priority undoGroup : Nat) (inserts deletes : Subset)
  | undo (toggled : List Nat) (bitxor : Subset)
deriving DecidableEq, Repr

/-- `struct Revision`, engine.rs:94-102. -/
structure Revision where
  revId : RevId
  maxUndoSoFar : Nat
  edit : Contents
deriving DecidableEq, Repr

/-- `struct FullPriority`, engine.rs:123-127. -/
structure FullPriority where
  priority : Nat
  session : Nat × Nat
deriving DecidableEq, Repr

/-- `>=` of the derived `PartialOrd`: lexicographic, fields in order. -/
def FullPriority.ge (a b : FullPriority) : Bool :=
  if a.priority ≠ b.priority then decide (a.priority > b.priority)
  else if a.session.1 ≠ b.session.1 then decide (a.session.1 > b.session.1)
  else decide (a.session.2 ≥ b.session.2)

/-- `enum Error`, engine.rs:114-121. -/
inductive EngineError where
  | missingRevision (token : Nat)
  | malformedDelta (revLen deltaLen : Nat)
deriving DecidableEq, Repr

/-- `struct Engine`, engine.rs:43-74. -/
structure Engine (α : Type) where
  session : Nat × Nat
  revIdCounter : Nat
  text : List α
  tombstones : List α
  deletesFromUnion : Subset
  undoneGroups : List Nat
  revs : List Revision
deriving DecidableEq, Repr

/-- `BTreeSet::symmetric_difference`. -/
def symDiff (a b : List Nat) : List Nat :=
  a.filter (fun x => !b.contains x) ++ b.filter (fun x => !a.contains x)

/-- `iter().enumerate().rev().find(p).map(|(i, _)| i)`: index of the last
element that satisfies `p`. -/
def findLastIdx {β : Type} (p : β → Bool) : List β → Option Nat
  | [] => none
  | x :: xs =>
    match findLastIdx p xs with
    | some i => some (i + 1)
    | none => if p x then some 0 else none

/-- `shuffle_tombstones`, engine.rs:710-722. -/
def shuffleTombstones (text tombstones : List α) (old new : Subset) : Option (List α) := do
  let inverse ← old.complement
  let newInverse ← new.complement
  let moveDelta ← Delta.synthesize text inverse newInverse
  moveDelta.apply tombstones

/-- `shuffle`, engine.rs:726-738. -/
def shuffle (text tombstones : List α) (old new : Subset) : Option (List α × List α) := do
  let delDelta ← Delta.synthesize tombstones old new
  let newText ← delDelta.apply text
  let newTombstones ← shuffleTombstones text tombstones old new
  return (newText, newTombstones)

namespace Engine

/-- `Engine::empty`, engine.rs:202-221, with `default_session`, engine.rs:160-162. -/
def empty : Option (Engine α) := do
  let dels ← Subset.new 0
  return {
    session := (1, 0)
    revIdCounter := 1
    text := []
    tombstones := []
    deletesFromUnion := dels
    undoneGroups := []
    revs := [⟨⟨0, 0, 0⟩, 0, .undo [] dels⟩] }

/-- `Engine::next_rev_id`, engine.rs:223-225. -/
def nextRevId (e : Engine α) : RevId := ⟨e.session.1, e.session.2, e.revIdCounter⟩

/-- `Engine::find_rev`, engine.rs:227-234. -/
def findRev (e : Engine α) (id : RevId) : Option Nat :=
  findLastIdx (fun r => r.revId == id) e.revs

/-- `Engine::find_rev_token`, engine.rs:236-243. -/
def findRevToken (tok : RevId → Nat) (e : Engine α) (t : Nat) : Option Nat :=
  findLastIdx (fun r => tok r.revId == t) e.revs

/-- Body of the loop of `deletes_from_union_before_index`, engine.rs:259-281. -/
def unapply (invertUndos : Bool) (st : Subset × List Nat) (rev : Revision) :
    Option (Subset × List Nat) :=
  match rev.edit with
  | .edit _ g inserts deletes =>
    if st.2.contains g then do
      return (← st.1.transformShrink inserts, st.2)
    else do
      let unDeleted ← st.1.subtract deletes
      return (← unDeleted.transformShrink inserts, st.2)
  | .undo toggled bitxor =>
    if invertUndos then do
      return (← st.1.bitxor bitxor, symDiff st.2 toggled)
    else some st

/-- `Engine::deletes_from_union_before_index`, engine.rs:254-283.  (The slice
`revs[rev_index..]` would panic for `rev_index > revs.len()`, which no caller
passes.) -/
def deletesFromUnionBeforeIndex (e : Engine α) (ix : Nat) (invertUndos : Bool) : Option Subset := do
  let st ← (e.revs.drop ix).reverse.foldlM (unapply invertUndos) (e.deletesFromUnion, e.undoneGroups)
  return st.1

/-- `Engine::deletes_from_union_for_index`, engine.rs:248-250. -/
def deletesFromUnionForIndex (e : Engine α) (ix : Nat) : Option Subset :=
  e.deletesFromUnionBeforeIndex (ix + 1) true

/-- Body of the loop of `deletes_from_cur_union_for_index`, engine.rs:296-302. -/
def curUnionStep (d : Subset) (rev : Revision) : Option Subset :=
  match rev.edit with
  | .edit _ _ inserts _ => if inserts.isEmpty then some d else d.transformUnion inserts
  | .undo _ _ => some d

/-- `Engine::deletes_from_cur_union_for_index`, engine.rs:294-304. -/
def deletesFromCurUnionForIndex (e : Engine α) (ix : Nat) : Option Subset := do
  let d ← e.deletesFromUnionForIndex ix
  (e.revs.drop (ix + 1)).foldlM curUnionStep d

/-- `Engine::rev_content_for_index`, engine.rs:286-291. -/
def revContentForIndex (e : Engine α) (ix : Nat) : Option (List α) := do
  let old ← e.deletesFromCurUnionForIndex ix
  let delta ← Delta.synthesize e.tombstones e.deletesFromUnion old
  delta.apply e.text

/-- `Engine::max_undo_group_id`, engine.rs:307-309. -/
def maxUndoGroupId (e : Engine α) : Option Nat := e.revs.getLast?.map Revision.maxUndoSoFar

/-- `Engine::get_head_rev_id`, engine.rs:312-314. -/
def getHeadRevId (e : Engine α) : Option RevId := e.revs.getLast?.map Revision.revId

/-- `Engine::get_rev`, engine.rs:322-324; the inner option is the Rust result,
the outer one is a panic. -/
def getRev (tok : RevId → Nat) (e : Engine α) (t : Nat) : Option (Option (List α)) :=
  match e.findRevToken tok t with
  | none => some none
  | some ix => (e.revContentForIndex ix).map some

/-- `Engine::try_delta_rev_head`, engine.rs:328-339. -/
def tryDeltaRevHead (tok : RevId → Nat) (e : Engine α) (baseRev : Nat) :
    Option (Except EngineError (Delta α)) :=
  match e.findRevToken tok baseRev with
  | none => some (.error (.missingRevision baseRev))
  | some ix => do
    let prev ← e.deletesFromCurUnionForIndex ix
    let oldTombstones ← shuffleTombstones e.text e.tombstones e.deletesFromUnion prev
    let d ← Delta.synthesize oldTombstones prev e.deletesFromUnion
    return .ok d

/-- Body of the loop of `mk_new_rev` that carries the edit from the union of the
base revision to the union of the head, engine.rs:374-384. -/
def rebaseStep (prio : FullPriority) (st : InsertDelta α × Subset) (rev : Revision) :
    Option (InsertDelta α × Subset) :=
  match rev.edit with
  | .edit priority _ inserts _ =>
    if inserts.isEmpty then some st
    else do
      let after := prio.ge ⟨priority, rev.revId.sessionId⟩
      let ins ← st.1.transformExpand inserts after
      let dels ← st.2.transformExpand inserts
      return (ins, dels)
  | .undo _ _ => some st

/-- What `mk_new_rev` returns. -/
structure NewRev (α : Type) where
  rev : Revision
  text : List α
  tombstones : List α
  deletesFromUnion : Subset

/-- The part of `mk_new_rev` after the edit has been carried to the head union,
engine.rs:386-428. -/
def finishRev (e : Engine α) (priority undoGroup : Nat) (unionIns : InsertDelta α)
    (newDeletes : Subset) : Option (NewRev α) := do
  let newInserts ← unionIns.insertedSubset
  let newDeletes ← if newInserts.isEmpty then some newDeletes else newDeletes.transformExpand newInserts
  let textIns ← unionIns.transformShrink e.deletesFromUnion
  let textWithInserts ← textIns.apply e.text
  let rebased ← e.deletesFromUnion.transformExpand newInserts
  let toDelete := if e.undoneGroups.contains undoGroup then newInserts else newDeletes
  let newDeletesFromUnion ← rebased.union toDelete
  let (newText, newTombstones) ← shuffle textWithInserts e.tombstones rebased newDeletesFromUnion
  let headRev ← e.revs.getLast?
  return {
    rev := ⟨e.nextRevId, max undoGroup headRev.maxUndoSoFar,
      .edit priority undoGroup newInserts newDeletes⟩
    text := newText
    tombstones := newTombstones
    deletesFromUnion := newDeletesFromUnion }

/-- `Engine::mk_new_rev`, engine.rs:347-429. -/
def mkNewRev (tok : RevId → Nat) (e : Engine α) (priority undoGroup baseRev : Nat) (delta : Delta α) :
    Option (Except EngineError (NewRev α)) :=
  match e.findRevToken tok baseRev with
  | none => some (.error (.missingRevision baseRev))
  | some ix => do
    let (insDelta, deletes) ← delta.factor
    let deletesAtRev ← e.deletesFromUnionForIndex ix
    if insDelta.d.baseLen ≠ deletesAtRev.lenAfterDelete then
      return .error (.malformedDelta deletesAtRev.lenAfterDelete insDelta.d.baseLen)
    else
      let unionIns ← insDelta.transformExpand deletesAtRev true
      let newDeletes ← deletes.transformExpand deletesAtRev
      let (unionIns, newDeletes) ←
        (e.revs.drop (ix + 1)).foldlM (rebaseStep ⟨priority, e.session⟩) (unionIns, newDeletes)
      let r ← e.finishRev priority undoGroup unionIns newDeletes
      return .ok r

/-- `Engine::try_edit_rev`, engine.rs:452-467. -/
def tryEditRev (tok : RevId → Nat) (e : Engine α) (priority undoGroup baseRev : Nat) (delta : Delta α) :
    Option (Except EngineError (Engine α)) := do
  match ← e.mkNewRev tok priority undoGroup baseRev delta with
  | .error err => return .error err
  | .ok r =>
    return .ok { e with
      revIdCounter := e.revIdCounter + 1
      revs := e.revs ++ [r.rev]
      text := r.text
      tombstones := r.tombstones
      deletesFromUnion := r.deletesFromUnion }

/-- `Engine::edit_rev`, engine.rs:437-445. -/
def editRev (tok : RevId → Nat) (e : Engine α) (priority undoGroup baseRev : Nat) (delta : Delta α) :
    Option (Engine α) := do
  match ← e.tryEditRev tok priority undoGroup baseRev delta with
  | .error _ => none
  | .ok e => some e

/-- `Engine::new`, engine.rs:192-200. -/
def new (tok : RevId → Nat) (initial : List α) : Option (Engine α) := do
  let e ← Engine.empty
  if initial.isEmpty then return e
  else
    let first ← e.getHeadRevId
    let delta ← Delta.simpleEdit 0 0 initial 0
    e.editRev tok 0 0 (tok first) delta

/-- `Engine::empty_subset_before_first_rev`, engine.rs:471-479. -/
def emptySubsetBeforeFirstRev (e : Engine α) : Option Subset := do
  let first ← e.revs.head?
  Subset.new (match first.edit with
    | .edit _ _ inserts _ => inserts.count .zero
    | .undo _ bitxor => bitxor.count .all)

/-- `Engine::find_first_undo_candidate_index`, engine.rs:482-495. -/
def findFirstUndoCandidateIndex (e : Engine α) (toggled : List Nat) : Nat :=
  match toggled.min? with
  | some lowest =>
    match findLastIdx (fun r => decide (r.maxUndoSoFar < lowest)) e.revs with
    | some i => i + 1
    | none => 0
  | none => e.revs.length

/-- Body of the loop of `compute_undo`, engine.rs:507-522. -/
def redoStep (groups : List Nat) (d : Subset) (rev : Revision) : Option Subset :=
  match rev.edit with
  | .edit _ g inserts deletes =>
    if groups.contains g then
      if inserts.isEmpty then some d else d.transformUnion inserts
    else do
      let d ← if inserts.isEmpty then some d else d.transformExpand inserts
      if deletes.isEmpty then return d else d.union deletes
  | .undo _ _ => some d

/-- `Engine::compute_undo`, engine.rs:500-534. -/
def computeUndo (e : Engine α) (groups : List Nat) : Option (Revision × Subset) := do
  let toggled := symDiff e.undoneGroups groups
  let first := e.findFirstUndoCandidateIndex toggled
  let d ← e.deletesFromUnionBeforeIndex first false
  let d ← (e.revs.drop first).foldlM (redoStep groups) d
  let bitxor ← e.deletesFromUnion.bitxor d
  let last ← e.revs.getLast?
  return (⟨e.nextRevId, last.maxUndoSoFar, .undo toggled bitxor⟩, d)

/-- `Engine::undo`, engine.rs:537-553. -/
def undo (e : Engine α) (groups : List Nat) : Option (Engine α) := do
  let (newRev, newDeletes) ← e.computeUndo groups
  let (newText, newTombstones) ← shuffle e.text e.tombstones e.deletesFromUnion newDeletes
  return { e with
    text := newText
    tombstones := newTombstones
    deletesFromUnion := newDeletes
    undoneGroups := groups
    revs := e.revs ++ [newRev]
    revIdCounter := e.revIdCounter + 1 }

/-- `Engine::is_equivalent_revision`, engine.rs:555-564. -/
def isEquivalentRevision (e : Engine α) (baseRev otherRev : RevId) : Option Bool := do
  let base ← match e.findRev baseRev with
    | none => some none
    | some ix => (e.deletesFromCurUnionForIndex ix).map some
  let other ← match e.findRev otherRev with
    | none => some none
    | some ix => (e.deletesFromCurUnionForIndex ix).map some
  return base.isSome && decide (base = other)

/-- Body of the first loop of `gc`, engine.rs:582-601. -/
def gcDelsStep (retain : List RevId) (gcGroups undone : List Nat) (gcDels : Subset) (rev : Revision) :
    Option Subset :=
  match rev.edit with
  | .edit _ g inserts deletes =>
    if !retain.contains rev.revId && gcGroups.contains g then
      if undone.contains g then
        if inserts.isEmpty then some gcDels else gcDels.transformUnion inserts
      else do
        let d ← if inserts.isEmpty then some gcDels else gcDels.transformExpand inserts
        if deletes.isEmpty then return d else d.union deletes
    else if inserts.isEmpty then some gcDels else gcDels.transformExpand inserts
  | .undo _ _ => some gcDels

/-- Body of the second loop of `gc`, engine.rs:610-654; the state is the list of
kept revisions (earliest first, i.e. already reversed) and `gc_dels`. -/
def gcRevStep (retain : List RevId) (gcGroups : List Nat) (st : List Revision × Subset)
    (rev : Revision) : Option (List Revision × Subset) :=
  match rev.edit with
  | .edit priority g inserts deletes => do
    let newGcDels ← if inserts.isEmpty then some st.2 else st.2.transformShrink inserts
    if retain.contains rev.revId || !gcGroups.contains g then
      if st.2.isEmpty then
        return (rev :: st.1, newGcDels)
      else
        let ins ← inserts.transformShrink st.2
        let dels ← deletes.transformShrink st.2
        return (⟨rev.revId, rev.maxUndoSoFar, .edit priority g ins dels⟩ :: st.1, newGcDels)
    else return (st.1, newGcDels)
  | .undo toggled bitxor =>
    if retain.contains rev.revId then do
      let b ← if st.2.isEmpty then some bitxor else bitxor.transformShrink st.2
      return (⟨rev.revId, rev.maxUndoSoFar,
        .undo (toggled.filter (fun g => !gcGroups.contains g)) b⟩ :: st.1, st.2)
    else some st

/-- The middle part of `gc`, engine.rs:603-608: drop the collected characters
from the tombstones and from `deletes_from_union`. -/
def gcTexts (e : Engine α) (gcDels : Subset) : Option (List α × Subset) :=
  if gcDels.isEmpty then some (e.tombstones, e.deletesFromUnion)
  else do
    let notInTombstones ← e.deletesFromUnion.complement
    let delsFromTombstones ← gcDels.transformShrink notInTombstones
    let t ← delsFromTombstones.deleteFrom e.tombstones
    let d ← e.deletesFromUnion.transformShrink gcDels
    return (t, d)

/-- `Engine::gc`, engine.rs:574-656. -/
def gc (e : Engine α) (gcGroups : List Nat) : Option (Engine α) := do
  let d0 ← e.emptySubsetBeforeFirstRev
  let retain := e.revs.getLast?.toList.map Revision.revId
  let gcDels ← e.revs.foldlM (gcDelsStep retain gcGroups e.undoneGroups) d0
  let (tombstones, dels) ← e.gcTexts gcDels
  let st ← e.revs.reverse.foldlM (gcRevStep retain gcGroups) ([], gcDels)
  return { e with tombstones := tombstones, deletesFromUnion := dels, revs := st.1 }

/-- `Engine::set_session_id`, engine.rs:697-704. -/
def setSessionId (e : Engine α) (session : Nat × Nat) : Option (Engine α) :=
  if e.revs.length = 1 then some { e with session := session } else none

end Engine

/-! ### Merging -/

/-- `find_base_index`, engine.rs:743-749. -/
def findBaseIndex (a b : List Revision) : Option Nat :=
  match a, b with
  | ra :: _, rb :: _ => if ra.revId = rb.revId then some 1 else none
  | _, _ => none

/-- `find_common`, engine.rs:752-757. -/
def findCommon (a b : List Revision) : List RevId :=
  (a.map Revision.revId).filter (fun id => (b.map Revision.revId).contains id)

/-- Body of the loop of `rearrange`, engine.rs:772-798; the output list is kept
in final (already reversed) order. -/
def rearrangeStep (baseRevs : List RevId) (st : List Revision × Subset) (rev : Revision) :
    Option (List Revision × Subset) :=
  match rev.edit with
  | .edit priority g inserts deletes =>
    if baseRevs.contains rev.revId then do
      return (st.1, ← inserts.transformUnion st.2)
    else do
      let ins ← inserts.transformExpand st.2
      let dels ← deletes.transformExpand st.2
      let s ← st.2.transformShrink ins
      return (⟨rev.revId, rev.maxUndoSoFar, .edit priority g ins dels⟩ :: st.1, s)
  | .undo _ _ => none

/-- `rearrange`, engine.rs:767-802.  (The capacity `revs.len() - base_revs.len()`
cannot underflow: `base_revs` contains ids of `revs` only.) -/
def rearrange (revs : List Revision) (baseRevs : List RevId) (headLen : Nat) :
    Option (List Revision) := do
  let s ← Subset.new headLen
  let st ← revs.reverse.foldlM (rearrangeStep baseRevs) ([], s)
  return st.1

/-- `struct DeltaOp`, engine.rs:804-811. -/
structure DeltaOp (α : Type) where
  revId : RevId
  priority : Nat
  undoGroup : Nat
  inserts : InsertDelta α
  deletes : Subset

/-- Body of the loop of `compute_deltas`, engine.rs:824-848; the output list is
kept in final order. -/
def computeDeltasStep (text tombstones : List α) (dels : Subset)
    (st : List (DeltaOp α) × Subset) (rev : Revision) : Option (List (DeltaOp α) × Subset) :=
  match rev.edit with
  | .edit priority g inserts deletes => do
    let older ← inserts.transformUnion st.2
    let tombstonesHere ← shuffleTombstones text tombstones dels older
    let delta ← Delta.synthesize tombstonesHere older st.2
    let (ins, _) ← delta.factor
    return (⟨rev.revId, priority, g, ins, deletes⟩ :: st.1, older)
  | .undo _ _ => none

/-- `compute_deltas`, engine.rs:815-852. -/
def computeDeltas (revs : List Revision) (text tombstones : List α) (dels : Subset) :
    Option (List (DeltaOp α)) := do
  let s ← Subset.new dels.len
  let st ← revs.reverse.foldlM (computeDeltasStep text tombstones dels) ([], s)
  return st.1

/-- Body of the loop of `compute_transforms`, engine.rs:866-880; the output list
is kept reversed (last element first). -/
def computeTransformsStep (st : List (FullPriority × Subset) × Option Nat) (rev : Revision) :
    Option (List (FullPriority × Subset) × Option Nat) :=
  match rev.edit with
  | .edit priority _ inserts _ =>
    if inserts.isEmpty then some st
    else if some priority = st.2 then
      match st.1 with
      | [] => none
      | (p, s) :: rest => do return ((p, ← s.transformUnion inserts) :: rest, st.2)
    else some ((⟨priority, rev.revId.sessionId⟩, inserts) :: st.1, some priority)
  | .undo _ _ => some st

/-- `compute_transforms`, engine.rs:863-882. -/
def computeTransforms (revs : List Revision) : Option (List (FullPriority × Subset)) := do
  let st ← revs.foldlM computeTransformsStep ([], none)
  return st.1.reverse

/-- State of the inner loop of `rebase`, engine.rs:901-912. -/
structure RebaseInner (α : Type) where
  inserts : InsertDelta α
  deletes : Subset
  next : List (FullPriority × Subset)

/-- Body of the inner loop of `rebase`, engine.rs:901-912. -/
def rebaseInner (prio : FullPriority) (st : RebaseInner α) (t : FullPriority × Subset) :
    Option (RebaseInner α) := do
  let inserts ← st.inserts.transformExpand t.2 (prio.ge t.1)
  let inserted ← inserts.insertedSubset
  let newTrans ← t.2.transformExpand inserted
  let deletes ← st.deletes.transformExpand newTrans
  return ⟨inserts, deletes, st.next ++ [(t.1, newTrans)]⟩

/-- State of the outer loop of `rebase`. -/
structure RebaseState (α : Type) where
  expandBy : List (FullPriority × Subset)
  text : List α
  tombstones : List α
  dels : Subset
  maxUndo : Nat
  out : List Revision

/-- Body of the outer loop of `rebase`, engine.rs:897-940. -/
def rebaseOuter (st : RebaseState α) (op : DeltaOp α) : Option (RebaseState α) := do
  let inner ← st.expandBy.foldlM (rebaseInner ⟨op.priority, op.revId.sessionId⟩)
    ⟨op.inserts, op.deletes, []⟩
  let textInserts ← inner.inserts.transformShrink st.dels
  let textWithInserts ← textInserts.apply st.text
  let inserted ← inner.inserts.insertedSubset
  let expanded ← st.dels.transformExpand inserted
  let newDels ← expanded.union inner.deletes
  let (newText, newTombstones) ← shuffle textWithInserts st.tombstones expanded newDels
  let maxUndo := max st.maxUndo op.undoGroup
  return {
    expandBy := inner.next
    text := newText
    tombstones := newTombstones
    dels := newDels
    maxUndo := maxUndo
    out := st.out ++ [⟨op.revId, maxUndo, .edit op.priority op.undoGroup inserted inner.deletes⟩] }

/-- `rebase`, engine.rs:886-943. -/
def rebase (expandBy : List (FullPriority × Subset)) (bNew : List (DeltaOp α))
    (text tombstones : List α) (dels : Subset) (maxUndo : Nat) : Option (RebaseState α) :=
  bNew.foldlM rebaseOuter ⟨expandBy, text, tombstones, dels, maxUndo, []⟩

/-- `Engine::merge`, engine.rs:659-689. -/
def Engine.merge (e other : Engine α) : Option (Engine α) := do
  let baseIndex ← findBaseIndex e.revs other.revs
  let aToMerge := e.revs.drop baseIndex
  let bToMerge := other.revs.drop baseIndex
  let common := findCommon aToMerge bToMerge
  let aNew ← rearrange aToMerge common e.deletesFromUnion.len
  let bNew ← rearrange bToMerge common other.deletesFromUnion.len
  let bDeltas ← computeDeltas bNew other.text other.tombstones other.deletesFromUnion
  let expandBy ← computeTransforms aNew
  let maxUndo ← e.maxUndoGroupId
  let r ← rebase expandBy bDeltas e.text e.tombstones e.deletesFromUnion maxUndo
  return { e with
    text := r.text
    tombstones := r.tombstones
    deletesFromUnion := r.dels
    revs := e.revs ++ r.out }

end Xi
