import Verif.Rope.EngineMask
import Verif.Spec.History

/-!
# The engine invariant

An engine state is described by a sequence of labelled characters: every subset
stored in the engine is the mask of some property of the labels.
-/

namespace Xi

variable {α : Type}

/-- The ids of a list of revisions. -/
def ids (revs : List Revision) : List RevId := revs.map Revision.revId

@[simp] theorem ids_nil : ids [] = [] := rfl
@[simp] theorem ids_cons (r rs) : ids (r :: rs) = r.revId :: ids rs := rfl
@[simp] theorem ids_append (a b) : ids (a ++ b) = ids a ++ ids b := by simp [ids]

/-- The undo group of an edit; `none` for an undo. -/
def Revision.group? (r : Revision) : Option Nat :=
  match r.edit with
  | .edit _ g _ _ => some g
  | .undo _ _ => none

namespace Chr

/-- The character is part of the union text of the revisions `pre`. -/
def present (pre : List RevId) (c : Chr α) : Bool :=
  match c.insBy with
  | none => true
  | some a => pre.contains a.id

/-- How often the character is deleted, counting the edits in `pre`, when the
groups in `G` are undone. -/
def cnt (G : List Nat) (pre : List RevId) (c : Chr α) : Nat :=
  (match c.insBy with
    | none => 0
    | some a => if G.contains a.group then 1 else 0) +
  c.delBy.countP (fun d => pre.contains d.id && !G.contains d.group)

def insMark (id : RevId) (c : Chr α) : Nat := if c.insertedBy id then 1 else 0
def delMark (id : RevId) (c : Chr α) : Nat := if c.deletedBy id then 1 else 0

end Chr

open Chr

/-- The union text of the revisions `pre`. -/
def unionAt (l : List (Chr α)) (pre : List RevId) : List (Chr α) := l.filter (present pre)

/-- The deletions from the union text of `pre` when `G` is undone. -/
def cntMask (l : List (Chr α)) (G : List Nat) (pre : List RevId) : List Nat :=
  (unionAt l pre).map (cnt G pre)

/-- The labels of a character refer to edits among `revs`; an edit deletes a
character at most once and not before it was inserted. -/
structure ChrOk (revs : List Revision) (c : Chr α) : Prop where
  insLab : ∀ a, c.insBy = some a → ∃ r ∈ revs, r.revId = a.id ∧ r.group? = some a.group
  delLab : ∀ d ∈ c.delBy, ∃ r ∈ revs, r.revId = d.id ∧ r.group? = some d.group
  nodup : (c.delBy.map Lab.id).Nodup
  order : ∀ pre post, revs = pre ++ post → ∀ d ∈ c.delBy, d.id ∈ ids pre → c.present (ids pre) = true

/-- The subsets stored in a revision are the masks of the labels. -/
def RevOk (l : List (Chr α)) (pre : List RevId) (r : Revision) : Prop :=
  match r.edit with
  | .edit _ _ ins del =>
    ins.Is ((unionAt l (pre ++ [r.revId])).map (insMark r.revId)) ∧
    del.Is ((unionAt l (pre ++ [r.revId])).map (delMark r.revId))
  | .undo _ x => x.Normal ∧ x.counts.length = (unionAt l pre).length

/-- The recorded history is described by `l`. -/
structure RevsOk (l : List (Chr α)) (revs : List Revision) : Prop where
  nodup : (ids revs).Nodup
  chr : ∀ c ∈ l, ChrOk revs c
  rev : ∀ pre r post, revs = pre ++ r :: post → RevOk l (ids pre) r

/-- `unapply` on count lists. -/
def backStep (inv : Bool) (st : List Nat × List Nat) (r : Revision) : List Nat × List Nat :=
  match r.edit with
  | .edit _ g ins del =>
    if st.2.contains g then (keep ins.counts st.1, st.2)
    else (keep ins.counts (List.zipWith (· - ·) st.1 del.counts), st.2)
  | .undo t x => if inv then (List.zipWith (· ^^^ ·) st.1 x.counts, symDiff st.2 t) else st

/-- Going back over the revisions `post`. -/
def backTo (inv : Bool) (st : List Nat × List Nat) (post : List Revision) : List Nat × List Nat :=
  post.reverse.foldl (backStep inv) st

@[simp] theorem backTo_nil (inv st) : backTo inv st [] = st := rfl
theorem backTo_cons (inv st r post) : backTo inv st (r :: post) = backStep inv (backTo inv st post) r := by
  simp [backTo]
theorem backTo_snoc (inv st r post) : backTo inv st (post ++ [r]) = backTo inv (backStep inv st r) post := by
  simp [backTo]

/-- The engine state is described by the labelled characters `l`. -/
structure Den (e : Engine α) (l : List (Chr α)) : Prop where
  revsOk : RevsOk l e.revs
  ne : e.revs ≠ []
  fresh : ∀ r ∈ e.revs, r.revId.sessionId = e.session → r.revId.num < e.revIdCounter
  maxSorted : (e.revs.map Revision.maxUndoSoFar).Pairwise (· ≤ ·)
  maxGroup : ∀ r ∈ e.revs, ∀ g, r.group? = some g → g ≤ r.maxUndoSoFar
  dels : e.deletesFromUnion.Is (l.map (cnt e.undoneGroups (ids e.revs)))
  text : e.text = keep (l.map (cnt e.undoneGroups (ids e.revs))) (l.map val)
  tombs : e.tombstones = keep (flipMask (l.map (cnt e.undoneGroups (ids e.revs)))) (l.map val)
  hist : ∀ pre post, e.revs = pre ++ post →
    ListLe (cntMask l (backTo true (l.map (cnt e.undoneGroups (ids e.revs)), e.undoneGroups) post).2 (ids pre))
      (backTo true (l.map (cnt e.undoneGroups (ids e.revs)), e.undoneGroups) post).1

/-! ### Facts about labels -/

theorem mem_ids {id : RevId} {revs : List Revision} : id ∈ ids revs ↔ ∃ r ∈ revs, r.revId = id := by
  simp [ids]

theorem nodup_ids_inj {revs : List Revision} (h : (ids revs).Nodup) {r r' : Revision}
    (h1 : r ∈ revs) (h2 : r' ∈ revs) (e : r.revId = r'.revId) : r = r' := by
  induction revs with
  | nil => simp at h1
  | cons x xs ih =>
    simp only [ids_cons, List.nodup_cons, mem_ids, not_exists, not_and] at h
    simp only [List.mem_cons] at h1 h2
    rcases h1 with rfl | h1 <;> rcases h2 with rfl | h2
    · rfl
    · exact absurd e.symm (h.1 _ h2)
    · exact absurd e (h.1 _ h1)
    · exact ih h.2 h1 h2

namespace RevsOk

variable {l : List (Chr α)} {revs pre post : List Revision} {r : Revision}

theorem notMem (h : RevsOk l revs) (hs : revs = pre ++ r :: post) : r.revId ∉ ids pre := by
  have := h.nodup
  rw [hs, ids_append, List.nodup_append] at this
  intro hm
  exact this.2.2 _ hm _ (by simp) rfl

theorem present_all (h : RevsOk l revs) {c : Chr α} (hc : c ∈ l) : c.present (ids revs) = true := by
  unfold present
  cases hi : c.insBy with
  | none => rfl
  | some a =>
    obtain ⟨r, h1, h2, _⟩ := (h.chr c hc).insLab a hi
    simp only [List.contains_iff_mem, mem_ids]
    exact ⟨r, h1, h2⟩

theorem unionAt_all (h : RevsOk l revs) : unionAt l (ids revs) = l := by
  rw [unionAt, List.filter_eq_self]
  exact fun c hc => h.present_all hc

theorem cntMask_all (h : RevsOk l revs) (G) : cntMask l G (ids revs) = l.map (cnt G (ids revs)) := by
  rw [cntMask, h.unionAt_all]

theorem present_snoc {id : RevId} {p : List RevId} (c : Chr α) (hp : id ∉ p) :
    (c.present (p ++ [id]) && (c.insMark id == 0)) = c.present p := by
  unfold present insMark insertedBy
  cases c.insBy with
  | none => simp
  | some a =>
    by_cases ha : a.id = id
    · subst ha; simp [hp]
    · simp [ha]

theorem unionAt_snoc {id : RevId} {p : List RevId} (hp : id ∉ p) :
    (unionAt l (p ++ [id])).filter (fun c => c.insMark id == 0) = unionAt l p := by
  rw [unionAt, unionAt, List.filter_filter]
  congr 1
  funext c
  rw [Bool.and_comm, present_snoc c hp]

theorem lab_group (h : RevsOk l revs) (hs : revs = pre ++ r :: post) {id : RevId} {g : Nat}
    (hl : ∃ r' ∈ revs, r'.revId = id ∧ r'.group? = some g) (hid : id = r.revId) : r.group? = some g := by
  obtain ⟨r', h1, h2, h3⟩ := hl
  have : r' = r := nodup_ids_inj h.nodup h1 (by simp [hs]) (by rw [h2, hid])
  rw [← this, h3]

/-- An undo does not insert anything. -/
theorem unionAt_undo (h : RevsOk l revs) (hs : revs = pre ++ r :: post) (hg : r.group? = none) :
    unionAt l (ids pre ++ [r.revId]) = unionAt l (ids pre) := by
  rw [← unionAt_snoc (l := l) (h.notMem hs)]
  symm
  rw [List.filter_eq_self]
  intro c hc
  have hc : c ∈ l := (List.mem_filter.1 hc).1
  unfold insMark insertedBy
  cases hi : c.insBy with
  | none => simp
  | some a =>
    have : a.id ≠ r.revId := fun he => by
      have := h.lab_group hs ((h.chr c hc).insLab a hi) he
      rw [hg] at this; cases this
    simp [this]

theorem countP_snoc {ds : List Lab} (hn : (ds.map Lab.id).Nodup) {p : List RevId} {id : RevId}
    (hp : id ∉ p) {G : List Nat} {g : Nat} (hg : ∀ d ∈ ds, d.id = id → d.group = g) :
    ds.countP (fun d => (p ++ [id]).contains d.id && !G.contains d.group) =
      ds.countP (fun d => p.contains d.id && !G.contains d.group) +
        (if G.contains g then 0 else if ds.any (fun d => d.id == id) then 1 else 0) := by
  induction ds with
  | nil => simp
  | cons d ds ih =>
    simp only [List.map_cons, List.nodup_cons] at hn
    have ih := ih hn.2 (fun d hd => hg d (by simp [hd]))
    simp only [List.countP_cons, ih, List.any_cons]
    by_cases hd : d.id = id
    · have h1 := hg d (by simp) hd
      have h2 : ds.any (fun d => d.id == id) = false := by
        rw [List.any_eq_false]
        intro d' hd' he
        simp at he
        exact hn.1 (List.mem_map.2 ⟨d', hd', by rw [he, hd]⟩)
      subst hd
      by_cases hG : G.contains g <;> simp_all
    · have : (p ++ [id]).contains d.id = p.contains d.id := by
        simp [hd]
      rw [this]
      simp only [beq_eq_false_iff_ne.2 hd, Bool.false_or]
      omega

/-- An edit's contribution to the count. -/
theorem cnt_snoc (h : RevsOk l revs) (hs : revs = pre ++ r :: post) {g : Nat} (hg : r.group? = some g)
    {c : Chr α} (hc : c ∈ l) (G : List Nat) :
    c.cnt G (ids pre ++ [r.revId]) = c.cnt G (ids pre) + (if G.contains g then 0 else c.delMark r.revId) := by
  unfold cnt delMark deletedBy
  rw [countP_snoc (h.chr c hc).nodup (h.notMem hs) (g := g), Nat.add_assoc]
  intro d hd he
  have := h.lab_group hs ((h.chr c hc).delLab d hd) he
  rw [hg] at this; exact (Option.some.inj this).symm

theorem cnt_undo (h : RevsOk l revs) (hs : revs = pre ++ r :: post) (hg : r.group? = none)
    {c : Chr α} (hc : c ∈ l) (G : List Nat) : c.cnt G (ids pre ++ [r.revId]) = c.cnt G (ids pre) := by
  unfold cnt
  congr 1
  apply List.countP_congr
  intro d hd
  have : d.id ≠ r.revId := fun he => by
    have := h.lab_group hs ((h.chr c hc).delLab d hd) he
    rw [hg] at this; cases this
  simp [this]

/-- A character has not been deleted before it is inserted. -/
theorem cnt_inserted (h : RevsOk l revs) (hs : revs = pre ++ r :: post) {g : Nat} (hg : r.group? = some g)
    {c : Chr α} (hc : c ∈ l) (hi : c.insMark r.revId ≠ 0) (G : List Nat) :
    c.cnt G (ids pre) = if G.contains g then 1 else 0 := by
  unfold insMark insertedBy at hi
  cases ha : c.insBy with
  | none => simp [ha] at hi
  | some a =>
    simp [ha] at hi
    have hag := h.lab_group hs ((h.chr c hc).insLab a ha) hi
    rw [hg] at hag
    have hag := Option.some.inj hag
    unfold cnt
    rw [ha]
    simp only [← hag]
    have : c.delBy.countP (fun d => (ids pre).contains d.id && !G.contains d.group) = 0 := by
      rw [List.countP_eq_zero]
      intro d hd hcon
      simp only [Bool.and_eq_true, List.contains_iff_mem] at hcon
      have := (h.chr c hc).order pre (r :: post) hs d hd hcon.1
      unfold present at this
      rw [ha] at this
      simp only [List.contains_iff_mem] at this
      rw [hi] at this
      exact h.notMem hs this
    omega

theorem mem_of_unionAt {c : Chr α} {p : List RevId} (hc : c ∈ unionAt l p) : c ∈ l := (List.mem_filter.1 hc).1

/-- Forward over an edit. -/
theorem cntMask_fwd (h : RevsOk l revs) (hs : revs = pre ++ r :: post) {g : Nat} (hg : r.group? = some g)
    (G : List Nat) :
    cntMask l G (ids pre ++ [r.revId]) =
      if G.contains g then
        unionMask ((unionAt l (ids pre ++ [r.revId])).map (insMark r.revId)) (cntMask l G (ids pre))
      else
        List.zipWith (fun x y => x + y)
          (expandMask ((unionAt l (ids pre ++ [r.revId])).map (insMark r.revId)) (cntMask l G (ids pre)))
          ((unionAt l (ids pre ++ [r.revId])).map (delMark r.revId)) := by
  have e1 : cntMask l G (ids pre) =
      ((unionAt l (ids pre ++ [r.revId])).filter (fun c => c.insMark r.revId == 0)).map (cnt G (ids pre)) := by
    rw [unionAt_snoc (h.notMem hs)]; rfl
  rw [e1, unionMask_map, expandMask_map, zipWith_map_map, cntMask]
  split
  · rename_i hG
    apply List.map_congr_left
    intro c hc
    rw [h.cnt_snoc hs hg (mem_of_unionAt hc), if_pos hG]
    split
    · simp
    · rename_i hi
      rw [h.cnt_inserted hs hg (mem_of_unionAt hc) hi, if_pos hG]
      revert hi; unfold insMark; split <;> simp
  · rename_i hG
    apply List.map_congr_left
    intro c hc
    rw [h.cnt_snoc hs hg (mem_of_unionAt hc), if_neg hG]
    split
    · simp
    · rename_i hi
      rw [h.cnt_inserted hs hg (mem_of_unionAt hc) hi, if_neg hG]

theorem cntMask_undo (h : RevsOk l revs) (hs : revs = pre ++ r :: post) (hg : r.group? = none) (G : List Nat) :
    cntMask l G (ids pre ++ [r.revId]) = cntMask l G (ids pre) := by
  rw [cntMask, h.unionAt_undo hs hg, cntMask]
  apply List.map_congr_left
  intro c hc
  exact h.cnt_undo hs hg (mem_of_unionAt hc) G

theorem insMask_zeros (h : RevsOk l revs) (hs : revs = pre ++ r :: post) :
    zeros ((unionAt l (ids pre ++ [r.revId])).map (insMark r.revId)) = (unionAt l (ids pre)).length := by
  rw [zeros_map, unionAt_snoc (h.notMem hs)]

/-- Back over an edit: the deletions of the edit can be subtracted, and what
remains still covers the earlier deletions. -/
theorem back_le (h : RevsOk l revs) (hs : revs = pre ++ r :: post) {g : Nat} (hg : r.group? = some g)
    (G : List Nat) (E : List Nat) (hE : ListLe (cntMask l G (ids pre ++ [r.revId])) E) :
    if G.contains g then
      ListLe (cntMask l G (ids pre)) (keep ((unionAt l (ids pre ++ [r.revId])).map (insMark r.revId)) E)
    else
      (∀ p ∈ E.zip ((unionAt l (ids pre ++ [r.revId])).map (delMark r.revId)), p.2 ≤ p.1) ∧
      ListLe (cntMask l G (ids pre)) (keep ((unionAt l (ids pre ++ [r.revId])).map (insMark r.revId))
        (List.zipWith (· - ·) E ((unionAt l (ids pre ++ [r.revId])).map (delMark r.revId)))) := by
  have e0 : cntMask l G (ids pre) = keep ((unionAt l (ids pre ++ [r.revId])).map (insMark r.revId))
      ((unionAt l (ids pre ++ [r.revId])).map (cnt G (ids pre))) := by
    rw [keep_map, unionAt_snoc (h.notMem hs)]; rfl
  have e1 : cntMask l G (ids pre ++ [r.revId]) = (unionAt l (ids pre ++ [r.revId])).map
      (fun c => c.cnt G (ids pre) + (if G.contains g then 0 else c.delMark r.revId)) := by
    rw [cntMask]
    apply List.map_congr_left
    intro c hc
    exact h.cnt_snoc hs hg (mem_of_unionAt hc) G
  rw [e0]
  split
  · rename_i hG
    simp only [if_pos hG, Nat.add_zero] at e1
    rw [e1] at hE
    exact hE.keep _
  · rename_i hG
    simp only [if_neg hG] at e1
    rw [← zipWith_map_map (fun x y => x + y)] at e1
    rw [e1] at hE
    obtain ⟨h1, h2⟩ := ListLe.sub (by simp) hE
    exact ⟨h1, h2.keep _⟩

/-- Back over an edit: exact version. -/
theorem back_eq (h : RevsOk l revs) (hs : revs = pre ++ r :: post) {g : Nat} (hg : r.group? = some g)
    (G : List Nat) :
    cntMask l G (ids pre) =
    if G.contains g then
      keep ((unionAt l (ids pre ++ [r.revId])).map (insMark r.revId)) (cntMask l G (ids pre ++ [r.revId]))
    else
      keep ((unionAt l (ids pre ++ [r.revId])).map (insMark r.revId))
        (List.zipWith (· - ·) (cntMask l G (ids pre ++ [r.revId]))
          ((unionAt l (ids pre ++ [r.revId])).map (delMark r.revId))) := by
  have e1 : cntMask l G (ids pre ++ [r.revId]) = (unionAt l (ids pre ++ [r.revId])).map
      (fun c => c.cnt G (ids pre) + (if G.contains g then 0 else c.delMark r.revId)) := by
    rw [cntMask]
    apply List.map_congr_left
    intro c hc
    exact h.cnt_snoc hs hg (mem_of_unionAt hc) G
  rw [e1, zipWith_map_map, keep_map, keep_map, unionAt_snoc (h.notMem hs)]
  split
  · rename_i hG; simp [hG, cntMask]
  · rename_i hG; simp [hG, cntMask]

end RevsOk

/-! ### Going back in the model -/

/-- One step of `unapply`. -/
theorem unapply_spec {l : List (Chr α)} {revs pre post : List Revision} {r : Revision}
    (h : RevsOk l revs) (hs : revs = pre ++ r :: post) (inv : Bool) (S : Subset) (E G : List Nat)
    (hS : S.Is E) (hE : ListLe (cntMask l G (ids pre ++ [r.revId])) E) :
    ∃ S', Engine.unapply inv (S, G) r = some (S', (backStep inv (E, G) r).2) ∧
      S'.Is (backStep inv (E, G) r).1 ∧ (backStep inv (E, G) r).1.length = (unionAt l (ids pre)).length := by
  have hr := h.rev pre r post hs
  have hlen : E.length = (unionAt l (ids pre ++ [r.revId])).length := by
    rw [← hE.1]; simp [cntMask]
  have hz := h.insMask_zeros hs
  unfold Engine.unapply backStep
  unfold RevOk at hr
  cases he : r.edit with
  | edit p g ins del =>
    rw [he] at hr
    have hb := h.back_le hs (g := g) (by simp [Revision.group?, he]) G E hE
    simp only
    by_cases hG : G.contains g
    · rw [if_pos hG] at hb ⊢
      rw [if_pos hG]
      obtain ⟨S', a1, a2⟩ := hS.shrink hr.1 (by simpa using hlen)
      refine ⟨S', by simp [a1], ?_, ?_⟩
      · rw [hr.1.2]; exact a2
      · rw [hr.1.2, keep_length _ _ (by simp [hlen]), hz]
    · rw [if_neg hG] at hb ⊢
      rw [if_neg hG]
      obtain ⟨S1, a1, a2⟩ := hS.subtract hr.2 (by simpa using hlen) hb.1
      obtain ⟨S2, b1, b2⟩ := a2.shrink hr.1 (by simp [hlen])
      refine ⟨S2, by simp [a1, b1], ?_, ?_⟩
      · rw [hr.1.2, hr.2.2]; exact b2
      · rw [hr.1.2, hr.2.2, keep_length _ _ (by simp [hlen]), hz]
  | undo t x =>
    rw [he] at hr
    have hu := h.unionAt_undo hs (by simp [Revision.group?, he])
    rw [hu] at hlen
    simp only at hr ⊢
    cases inv with
    | false => exact ⟨S, by simp, by simpa using hS, by simpa using hlen⟩
    | true =>
      obtain ⟨S', a1, a2⟩ := hS.bitxor (b := x) ⟨hr.1, rfl⟩ (by rw [hlen, hr.2])
      exact ⟨S', by simp [a1], by simpa using a2, by simp [hlen, hr.2]⟩

variable {e : Engine α} {l : List (Chr α)}

/-- Going back over `post`, undoing undos. -/
theorem Den.back_true (h : Den e l) : ∀ (post pre : List Revision), e.revs = pre ++ post →
    ∃ S, post.reverse.foldlM (Engine.unapply true) (e.deletesFromUnion, e.undoneGroups) =
        some (S, (backTo true (l.map (cnt e.undoneGroups (ids e.revs)), e.undoneGroups) post).2) ∧
      S.Is (backTo true (l.map (cnt e.undoneGroups (ids e.revs)), e.undoneGroups) post).1 ∧
      (backTo true (l.map (cnt e.undoneGroups (ids e.revs)), e.undoneGroups) post).1.length =
        (unionAt l (ids pre)).length := by
  intro post
  induction post with
  | nil =>
    intro pre hs
    refine ⟨_, rfl, h.dels, ?_⟩
    rw [List.append_nil] at hs
    simp [← hs, h.revsOk.unionAt_all]
  | cons r post ih =>
    intro pre hs
    obtain ⟨S, a1, a2, a3⟩ := ih (pre ++ [r]) (by simp [hs])
    have hh := h.hist (pre ++ [r]) post (by simp [hs])
    rw [ids_append] at hh
    obtain ⟨S', b1, b2, b3⟩ := unapply_spec h.revsOk hs true S _ _ a2 hh
    rw [List.reverse_cons, List.foldlM_append, a1, backTo_cons]
    exact ⟨S', by simpa using b1, b2, b3⟩

theorem Den.for_index (h : Den e l) {pre post : List Revision} (hs : e.revs = pre ++ post) :
    ∃ S, e.deletesFromUnionBeforeIndex pre.length true = some S ∧
      S.Is (backTo true (l.map (cnt e.undoneGroups (ids e.revs)), e.undoneGroups) post).1 ∧
      (backTo true (l.map (cnt e.undoneGroups (ids e.revs)), e.undoneGroups) post).1.length =
        (unionAt l (ids pre)).length := by
  obtain ⟨S, a1, a2, a3⟩ := h.back_true post pre hs
  refine ⟨S, ?_, a2, a3⟩
  have : e.revs.drop pre.length = post := by rw [hs]; simp
  rw [Engine.deletesFromUnionBeforeIndex, this, a1]; rfl

/-- Going back over `post` without undoing undos. -/
theorem Den.back_false (h : Den e l) : ∀ (post pre : List Revision), e.revs = pre ++ post →
    ∃ S, post.reverse.foldlM (Engine.unapply false) (e.deletesFromUnion, e.undoneGroups) =
        some (S, e.undoneGroups) ∧ S.Is (cntMask l e.undoneGroups (ids pre)) := by
  intro post
  induction post with
  | nil =>
    intro pre hs
    rw [List.append_nil] at hs
    refine ⟨_, rfl, ?_⟩
    rw [← hs, h.revsOk.cntMask_all]
    exact h.dels
  | cons r post ih =>
    intro pre hs
    obtain ⟨S, a1, a2⟩ := ih (pre ++ [r]) (by simp [hs])
    rw [ids_append] at a2
    obtain ⟨S', b1, b2, b3⟩ := unapply_spec h.revsOk hs false S _ e.undoneGroups a2 (ListLe.refl _)
    have hr := h.revsOk.rev pre r post hs
    rw [List.reverse_cons, List.foldlM_append, a1]
    have e2 : (backStep false (cntMask l e.undoneGroups (ids pre ++ [r.revId]), e.undoneGroups) r) =
        (cntMask l e.undoneGroups (ids pre), e.undoneGroups) := by
      unfold RevOk at hr
      unfold backStep
      cases he : r.edit with
      | edit p g ins del =>
        rw [he] at hr
        simp only
        rw [h.revsOk.back_eq hs (g := g) (by simp [Revision.group?, he]), hr.1.2, hr.2.2]
        split <;> rfl
      | undo t x =>
        simp only [Bool.false_eq_true, if_false]
        rw [h.revsOk.cntMask_undo hs (by simp [Revision.group?, he])]
    rw [show (ids [r]) = [r.revId] from rfl, e2] at b1
    rw [show (ids [r]) = [r.revId] from rfl, e2] at b2
    exact ⟨S', by simpa using b1, b2⟩

theorem Den.before_false (h : Den e l) {pre post : List Revision} (hs : e.revs = pre ++ post) :
    ∃ S, e.deletesFromUnionBeforeIndex pre.length false = some S ∧
      S.Is (cntMask l e.undoneGroups (ids pre)) := by
  obtain ⟨S, a1, a2⟩ := h.back_false post pre hs
  refine ⟨S, ?_, a2⟩
  have : e.revs.drop pre.length = post := by rw [hs]; simp
  rw [Engine.deletesFromUnionBeforeIndex, this, a1]; rfl

/-! ### Going forward in the model -/

/-- Forward over `post`: the inserted characters are marked. -/
def fwdMask (B : List Nat) : List Revision → List Nat
  | [] => B
  | r :: post =>
    match r.edit with
    | .edit _ _ ins _ => fwdMask (unionMask ins.counts B) post
    | .undo _ _ => fwdMask B post

theorem RevsOk.curUnion {revs : List Revision} (h : RevsOk l revs) : ∀ (post pre : List Revision),
    revs = pre ++ post → ∀ (S : Subset) (B : List Nat), S.Is B → B.length = (unionAt l (ids pre)).length →
    ∃ S', post.foldlM Engine.curUnionStep S = some S' ∧ S'.Is (fwdMask B post) ∧
      (fwdMask B post).length = l.length := by
  intro post
  induction post with
  | nil =>
    intro pre hs S B hS hB
    refine ⟨S, rfl, hS, ?_⟩
    rw [List.append_nil] at hs
    rw [fwdMask, hB, ← hs, h.unionAt_all]
  | cons r post ih =>
    intro pre hs S B hS hB
    have hr := h.rev pre r post hs
    unfold RevOk at hr
    simp only [List.foldlM_cons, Engine.curUnionStep, fwdMask]
    cases he : r.edit with
    | edit p g ins del =>
      rw [he] at hr
      simp only
      obtain ⟨S1, a1, a2⟩ := hS.transUnion_opt hr.1 (by rw [h.insMask_zeros hs, hB])
      rw [a1]
      rw [← hr.1.2] at a2
      exact ih (pre ++ [r]) (by simp [hs]) S1 _ a2 (by simp [hr.1.2])
    | undo t x =>
      simp only [Option.bind_eq_bind, Option.bind_some]
      exact ih (pre ++ [r]) (by simp [hs]) S B hS
        (by rw [ids_append, show ids [r] = [r.revId] from rfl,
              h.unionAt_undo hs (by simp [Revision.group?, he]), hB])

/-- The deletions from the current union that give the revision after `pre`. -/
def revMask (e : Engine α) (l : List (Chr α)) (post : List Revision) : List Nat :=
  fwdMask (backTo true (l.map (cnt e.undoneGroups (ids e.revs)), e.undoneGroups) post).1 post

theorem Den.cur_union (h : Den e l) {pre post : List Revision} {r : Revision}
    (hs : e.revs = pre ++ r :: post) :
    ∃ S, e.deletesFromCurUnionForIndex pre.length = some S ∧ S.Is (revMask e l post) ∧
      (revMask e l post).length = l.length := by
  obtain ⟨S, a1, a2, a3⟩ := h.for_index (pre := pre ++ [r]) (post := post) (by simp [hs])
  obtain ⟨S', b1, b2, b3⟩ := h.revsOk.curUnion post (pre ++ [r]) (by simp [hs]) S _ a2 a3
  refine ⟨S', ?_, b2, b3⟩
  have : e.revs.drop (pre.length + 1) = post := by rw [hs]; simp
  rw [Engine.deletesFromCurUnionForIndex, Engine.deletesFromUnionForIndex, this]
  simp only [List.length_append, List.length_cons, List.length_nil] at a1
  rw [a1]; exact b1

theorem Den.length_dels (h : Den e l) : e.deletesFromUnion.counts.length = l.length := by
  rw [h.dels.2]; simp

/-- Reading a revision. -/
theorem Den.rev_content (h : Den e l) {pre post : List Revision} {r : Revision}
    (hs : e.revs = pre ++ r :: post) :
    e.revContentForIndex pre.length = some (keep (revMask e l post) (l.map val)) := by
  obtain ⟨S, a1, a2, a3⟩ := h.cur_union hs
  obtain ⟨d, d1, d2, d3, d4⟩ := Delta.synthesize_spec e.deletesFromUnion S (l.map val)
    (by rw [h.length_dels]; simp) (by rw [a2.2, a3]; simp)
  rw [h.dels.2, ← h.tombs] at d1
  rw [h.dels.2, ← h.text] at d3
  rw [h.dels.2, ← h.text] at d4
  rw [Engine.revContentForIndex, a1]
  simp only [Option.bind_eq_bind, Option.bind_some, d1, Delta.apply_spec d _ d2 d3.symm, d4, a2.2]

/-- The forward replay of `compute_undo`. -/
theorem RevsOk.redo {revs : List Revision} (h : RevsOk l revs) (G : List Nat) :
    ∀ (post pre : List Revision), revs = pre ++ post →
    ∀ (S : Subset), S.Is (cntMask l G (ids pre)) →
    ∃ S', post.foldlM (Engine.redoStep G) S = some S' ∧ S'.Is (l.map (cnt G (ids revs))) := by
  intro post
  induction post with
  | nil =>
    intro pre hs S hS
    refine ⟨S, rfl, ?_⟩
    rw [List.append_nil] at hs
    rw [← hs, h.cntMask_all] at hS
    exact hS
  | cons r post ih =>
    intro pre hs S hS
    have hr := h.rev pre r post hs
    have hlen : (cntMask l G (ids pre)).length = (unionAt l (ids pre)).length := by simp [cntMask]
    unfold RevOk at hr
    simp only [List.foldlM_cons, Engine.redoStep]
    cases he : r.edit with
    | edit p g ins del =>
      rw [he] at hr
      have hf := h.cntMask_fwd hs (g := g) (by simp [Revision.group?, he]) G
      simp only
      by_cases hG : G.contains g
      · rw [if_pos hG] at hf
        obtain ⟨S1, a1, a2⟩ := hS.transUnion_opt hr.1 (by rw [h.insMask_zeros hs, hlen])
        rw [if_pos hG, a1]
        exact ih (pre ++ [r]) (by simp [hs]) S1 (by
          rw [ids_append, show ids [r] = [r.revId] from rfl, hf]; exact a2)
      · rw [if_neg hG] at hf
        obtain ⟨S1, a1, a2⟩ := hS.expand_opt hr.1 (by rw [h.insMask_zeros hs, hlen])
        obtain ⟨S2, b1, b2⟩ := a2.union_opt hr.2 (by simp)
        rw [if_neg hG]
        have key : (if ins.isEmpty = true then if del.isEmpty = true then some S else S.union del
            else (S.transformExpand ins).bind fun d => if del.isEmpty = true then some d else d.union del) =
            some S2 := by
          by_cases hi : ins.isEmpty = true
          · rw [if_pos hi] at a1 ⊢
            cases a1; exact b1
          · rw [if_neg hi] at a1 ⊢
            rw [a1]; exact b1
        simp only [Option.bind_eq_bind, Option.pure_def, key, Option.bind_some]
        exact ih (pre ++ [r]) (by simp [hs]) S2 (by
          rw [ids_append, show ids [r] = [r.revId] from rfl, hf]; exact b2)
    | undo t x =>
      simp only [Option.bind_eq_bind, Option.bind_some]
      exact ih (pre ++ [r]) (by simp [hs]) S (by
        rw [ids_append, show ids [r] = [r.revId] from rfl,
              h.cntMask_undo hs (by simp [Revision.group?, he])]
        exact hS)

end Xi
