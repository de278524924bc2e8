import Verif.Rope.MergeTrans
import Verif.Rope.EngineEdit

/-!
# Adding a revision of another replica
-/

namespace Xi

variable {α : Type}

open Chr

/-- `rebase` on one operation, after the inner loop. -/
theorem Den.addRev {e : Engine α} {l l' : List (Chr α)} (h : Den e l) (hu : e.undoneGroups = []) {lab : Lab}
    (hext : Ext lab l l') (hfr : lab.id ∉ ids e.revs) (hses : lab.id.sessionId ≠ e.session)
    {ins : InsertDelta α} {d : Subset} (p : Nat)
    (hins : ins.Denotes l.length (l'.map (insMark lab.id)) ((l'.filter (insertedBy lab.id)).map val))
    (hpos : ins.Pos) (hd : d.Is (l'.map (delMark lab.id))) {mu : Nat} (hmu : e.maxUndoGroupId = some mu) :
    ∃ ti tx i rb nD nt ntb, ins.transformShrink e.deletesFromUnion = some ti ∧ ti.apply e.text = some tx ∧
      ins.insertedSubset = some i ∧ e.deletesFromUnion.transformExpand i = some rb ∧ rb.union d = some nD ∧
      shuffle tx e.tombstones rb nD = some (nt, ntb) ∧
      Den { e with revs := e.revs ++ [⟨lab.id, max mu lab.group, .edit p lab.group i d⟩], text := nt,
                   tombstones := ntb, deletesFromUnion := nD } l' := by
  have hzJ : zeros (l'.map (insMark lab.id)) = l.length := hins.zeros
  have hJl : l.length ≤ (l'.map (insMark lab.id)).length := hzJ ▸ zeros_le_length _
  obtain ⟨i, i1, i2n, i2c⟩ := hins.insertedSubset hpos
  have i2 : i.Is (l'.map (insMark lab.id)) := ⟨i2n, i2c⟩
  obtain ⟨ti, t1, t2⟩ := InsertDelta.transformShrink_spec e.deletesFromUnion (d := ins)
    (by rw [h.length_dels]; exact hins)
  rw [h.dels.2] at t2
  have htl : e.text.length = zeros (l.map (cnt e.undoneGroups (ids e.revs))) := by
    rw [h.text, keep_length _ _ (by simp)]
  have tap := t2.apply (base := e.text) htl
  obtain ⟨rb, r1, r2⟩ := h.dels.expand i2 (by rw [hzJ]; simp)
  obtain ⟨pre, last, hl1, hl2⟩ := h.last
  have hlm : last.maxUndoSoFar = mu := by
    unfold Engine.maxUndoGroupId at hmu
    rw [hl2] at hmu
    simpa using hmu
  let r : Revision := ⟨lab.id, max mu lab.group, .edit p lab.group i d⟩
  have hrg : r.group? = some lab.group := rfl
  have hrk : RevOk l' (ids e.revs) r := by
    unfold RevOk
    simp only [r]
    rw [hext.unionAt_all h.revsOk]
    exact ⟨i2, hd⟩
  have hk : RevsOk l' (e.revs ++ [r]) := hext.revsOk h.revsOk rfl hfr (Or.inl hrg) hrk
  have hD0 : cntMask l' e.undoneGroups (ids e.revs) = l.map (cnt e.undoneGroups (ids e.revs)) := by
    rw [hext.cntMask hfr, h.revsOk.cntMask_all]
  have hsplit : e.revs ++ [r] = e.revs ++ r :: [] := rfl
  have hfwd := hk.cntMask_fwd hsplit hrg e.undoneGroups
  have hall : cntMask l' e.undoneGroups (ids e.revs ++ [r.revId]) =
      l'.map (cnt e.undoneGroups (ids (e.revs ++ [r]))) := by
    rw [← hk.cntMask_all, ids_append]; rfl
  have hrid : r.revId = lab.id := rfl
  rw [hall, hD0, hrid, hext.unionAt_all h.revsOk, if_neg (by rw [hu]; simp)] at hfwd
  have hDlen : (l.map (cnt e.undoneGroups (ids e.revs))).length = zeros (l'.map (insMark lab.id)) := by rw [hzJ]; simp
  obtain ⟨nD, n1, n2⟩ := r2.union hd (by simp)
  rw [← hfwd] at n2
  have hlenS : ((l'.filter (insertedBy lab.id)).map val).length =
      (l'.map (insMark lab.id)).length - zeros (l'.map (insMark lab.id)) := by
    rw [hins.length, hzJ]
  have hv : l'.map val = weave (l'.map (insMark lab.id)) (l.map val) ((l'.filter (insertedBy lab.id)).map val) := by
    rw [← weave_map l' (insMark lab.id) val, ← hext.old, List.map_map]
    congr 2
    apply List.filter_congr
    intro c _
    rw [insMark_of]
    by_cases hi : c.insertedBy lab.id = true <;> simp [hi]
  have hsh := shuffle_spec r2 n2 (l'.map val) (by simp) (by simp)
  rw [hv, keep_expand_weave _ _ (l.map val) _ hDlen (by simp) hlenS,
    keep_flip_expand_weave _ _ (l.map val) _ hDlen (by simp) hlenS, ← h.text, ← h.tombs, ← hv] at hsh
  have hback : backStep true (l'.map (cnt e.undoneGroups (ids (e.revs ++ [r]))), e.undoneGroups) r =
      (l.map (cnt e.undoneGroups (ids e.revs)), e.undoneGroups) := by
    have := hk.back_eq hsplit hrg e.undoneGroups
    rw [hall, hD0, hrid, hext.unionAt_all h.revsOk] at this
    unfold backStep
    simp only [r]
    rw [i2.2, hd.2, this]
    split <;> rfl
  refine ⟨ti, _, i, rb, nD, _, _, t1, tap, i1, r1, n1, hsh, ?_⟩
  refine ⟨hk, by simp, ?_, ?_, ?_, n2, rfl, rfl, ?_⟩
  · intro r' hr' hs
    simp only [List.mem_append, List.mem_singleton] at hr'
    rcases hr' with hr' | rfl
    · exact h.fresh r' hr' hs
    · exact absurd hs hses
  · rw [List.map_append, List.pairwise_append]
    refine ⟨h.maxSorted, by simp, ?_⟩
    intro a ha b hb
    simp only [List.map_cons, List.map_nil, List.mem_singleton] at hb
    subst hb
    obtain ⟨r', h1, rfl⟩ := List.mem_map.1 ha
    have := h.maxSorted
    rw [hl1, List.map_append, List.pairwise_append] at this
    rw [hl1] at h1
    simp only [List.mem_append, List.mem_singleton] at h1
    have h3 : r'.maxUndoSoFar ≤ last.maxUndoSoFar := by
      rcases h1 with h1 | rfl
      · exact this.2.2 _ (List.mem_map_of_mem h1) _ (by simp)
      · exact Nat.le_refl _
    omega
  · intro r' hr' g' hg'
    simp only [List.mem_append, List.mem_singleton] at hr'
    rcases hr' with hr' | rfl
    · exact h.maxGroup r' hr' g' hg'
    · rw [show Revision.group? ⟨lab.id, max mu lab.group, .edit p lab.group i d⟩ = some lab.group from rfl] at hg'
      cases hg'
      simp only; omega
  · intro pre' post' hs
    simp only at hs ⊢
    rcases List.eq_nil_or_concat post' with rfl | ⟨post'', y, rfl⟩
    · rw [List.append_nil] at hs
      rw [← hs, hk.cntMask_all]
      exact ListLe.refl _
    · have hs' : e.revs ++ [r] = (pre' ++ post'') ++ [y] := by simp [r, hs]
      obtain ⟨h1, h2⟩ := List.append_inj' hs' rfl
      simp only [List.cons.injEq, and_true] at h2
      subst h2
      rw [List.concat_eq_append, backTo_snoc, show ids (e.revs ++
        [⟨lab.id, max mu lab.group, .edit p lab.group i d⟩]) = ids (e.revs ++ [r]) from rfl, hback]
      have hp : lab.id ∉ ids pre' := fun hm' => hfr (by rw [h1]; simp [hm'])
      rw [hext.cntMask hp]
      exact h.hist pre' post'' h1

/-! ### What the replicas know of the shared document -/

/-- A document shared by several replicas. -/
structure ZOk (Z : List (Chr α)) (grp : RevId → Nat) : Prop where
  insGrp : ∀ c ∈ Z, ∀ a, c.insBy = some a → a.group = grp a.id
  delGrp : ∀ c ∈ Z, ∀ d ∈ c.delBy, d.group = grp d.id
  nodup : ∀ c ∈ Z, (c.delBy.map Lab.id).Nodup
  irr : ∀ c ∈ Z, ∀ d ∈ c.delBy, c.insertedBy d.id = false

/-- Whoever knows a deletion knows the deleted character. -/
def Closed (Z : List (Chr α)) (S : List RevId) : Prop :=
  ∀ c ∈ Z, ∀ d ∈ c.delBy, d.id ∈ S → c.present S = true

/-- The history of `e` is part of the shared document. -/
structure Peer (Z : List (Chr α)) (pr grp : RevId → Nat) (e : Engine α) : Prop where
  den : Den e (view (ids e.revs) Z)
  closed : Closed Z (ids e.revs)
  undone : e.undoneGroups = []
  head : ∃ r0 rest, e.revs = r0 :: rest ∧ r0.revId = ⟨0, 0, 0⟩ ∧
    ∀ r ∈ rest, ∃ i d, r.edit = .edit (pr r.revId) (grp r.revId) i d

theorem insertedBy_iff {id : RevId} {c : Chr α} : c.insertedBy id = true ↔ ∃ a, c.insBy = some a ∧ a.id = id := by
  unfold insertedBy
  cases c.insBy <;> simp

theorem deletedBy_iff {id : RevId} {c : Chr α} : c.deletedBy id = true ↔ ∃ d ∈ c.delBy, d.id = id := by
  unfold deletedBy
  simp

theorem Peer.hist {Z : List (Chr α)} {pr grp : RevId → Nat} {e : Engine α} (hz : ZOk Z grp) (h : Peer Z pr grp e)
    {r0 : Revision} {rest : List Revision} (hr : e.revs = r0 :: rest) : Hist Z [r0.revId] rest := by
  intro pre r post hs
  obtain ⟨r0', rest', h1, h2, h3⟩ := h.head
  rw [hr] at h1
  simp only [List.cons.injEq] at h1
  obtain ⟨rfl, rfl⟩ := h1
  have hsp : e.revs = (r0 :: pre) ++ r :: post := by rw [hr, hs]; simp
  have hsub : ∀ x ∈ ids (r0 :: pre), x ∈ ids e.revs := by
    intro x hx; rw [hsp, ids_append]; exact List.mem_append_left _ hx
  have hrm : r.revId ∈ ids e.revs := by rw [hsp]; simp
  obtain ⟨i, d, he⟩ := h3 r (by simp [hs])
  refine ⟨⟨_, _, _, _, he⟩, ?_, ?_⟩
  · have := h.den.revsOk.rev _ _ _ hsp
    rwa [revOk_view hsub hrm] at this
  · intro c hc hd
    obtain ⟨dl, d1, d2⟩ := deletedBy_iff.1 hd
    have hp := h.closed c hc dl d1 (by rw [d2]; exact hrm)
    have hm : c.only (ids e.revs) ∈ view (ids e.revs) Z :=
      List.mem_map_of_mem (List.mem_filter.2 ⟨hc, hp⟩)
    have hch := h.den.revsOk.chr _ hm
    have ho := hch.order ((r0 :: pre) ++ [r]) post (by rw [hsp]; simp) dl
      (by unfold Chr.only; simp only [List.mem_filter]; exact ⟨d1, by rw [d2]; simpa using hrm⟩)
      (by rw [d2, ids_append]; simp)
    rw [only_present, ids_append, show ids [r] = [r.revId] from rfl, present_snoc_iff] at ho
    have hi := hz.irr c hc dl d1
    rw [d2] at hi
    rw [hi] at ho
    simpa using ho

/-- Learning of one more edit. -/
theorem view_ext {Z : List (Chr α)} {grp : RevId → Nat} (hz : ZOk Z grp) {S : List RevId} (hS : Closed Z S) {b : RevId}
    (hb : b ∉ S) : Ext ⟨b, grp b⟩ (view S Z) (view (S ++ [b]) Z) := by
  refine ⟨?_, ?_, ?_, ?_⟩
  · unfold view
    simp only
    rw [List.filter_map, List.map_map, show ((fun c : Chr α => c.insMark b == 0) ∘ Chr.only (S ++ [b])) =
      (fun c : Chr α => c.insMark b == 0) from rfl, RevsOk.unionAt_snoc hb]
    apply List.map_congr_left
    intro c _
    simp only [Function.comp, undelete, Chr.only]
    congr 1
    rw [List.filter_filter]
    apply List.filter_congr
    intro d _
    by_cases h1 : d.id = b
    · simp [h1, hb]
    · rw [Bool.eq_iff_iff]; simp [h1]
  · intro c hc hi
    obtain ⟨c0, h0, rfl⟩ := List.mem_map.1 hc
    have hcZ := RevsOk.mem_of_unionAt h0
    simp only [only_insMark, insMark_of] at hi
    have hi : c0.insertedBy b = true := by
      revert hi; split <;> simp_all
    obtain ⟨a, a1, a2⟩ := insertedBy_iff.1 hi
    refine ⟨?_, ?_⟩
    · rw [only_insBy, a1]
      have := hz.insGrp c0 hcZ a a1
      cases a
      simp at a2 this
      subst a2; subst this; rfl
    · simp only [Chr.only]
      rw [List.filter_eq_nil_iff]
      intro d hd hm
      simp only [List.contains_iff_mem, List.mem_append, List.mem_singleton] at hm
      rcases hm with hm | hm
      · have := hS c0 hcZ d hd hm
        unfold present at this
        rw [a1] at this
        simp [a2] at this
        exact hb this
      · have := hz.irr c0 hcZ d hd
        rw [hm, hi] at this
        cases this
  · intro c hc d hd hid
    obtain ⟨c0, h0, rfl⟩ := List.mem_map.1 hc
    simp only [Chr.only, List.mem_filter] at hd
    have := hz.delGrp c0 (RevsOk.mem_of_unionAt h0) d hd.1
    cases d
    simp at hid this
    subst hid; subst this; rfl
  · intro c hc
    obtain ⟨c0, h0, rfl⟩ := List.mem_map.1 hc
    simp only [Chr.only]
    exact (List.Sublist.map _ List.filter_sublist).nodup (hz.nodup c0 (RevsOk.mem_of_unionAt h0))

end Xi
