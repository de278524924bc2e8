import Verif.Rope.MergeEdit
import Verif.Spec.Replicas

/-!
# All states two replicas can get into
-/

namespace Xi

variable {α : Type} {tok : RevId → Nat}

open Chr

theorem Peers.tryEdit {Z : List (Chr α)} {pr grp : RevId → Nat} {a b a' : Engine α} (h : Peers Z pr grp a b)
    {p g t : Nat} {d : Delta α} (hd : d.WF) (he : a.tryEditRev tok p g t d = some (.ok a')) :
    ∃ Z' pr' grp', Peers Z' pr' grp' a' b := by
  obtain ⟨pre, r, post, a1, a2, a3⟩ := h.left.den.edit_inv he
  obtain ⟨I, del, s, J, e', r', _, _, _, _, _, hm, b1, b2, b3, b4, b5, _, _, ⟨i, x, m, b6, _, _⟩, _⟩ :=
    h.left.den.edit tok a1 t a2 p g d hd a3
  rw [he] at b1; cases b1
  exact h.edit hm b2 b3 b4 b5 b6

theorem Replicas.peers {a b : Engine α} (h : Replicas tok a b) : ∃ Z pr grp, Peers Z pr grp a b := by
  induction h with
  | @start e a b sa sb he hs ha hb =>
    obtain ⟨D, h1, h2⟩ := Engine.empty_eq (α := α)
    rw [h2] at he; cases he
    simp [Engine.setSessionId] at ha hb
    have hp : ∀ s : Nat × Nat, Peer ([] : List (Chr α)) (fun _ => 0) (fun _ => 0)
        (⟨s, 1, [], [], D, [], [⟨⟨0, 0, 0⟩, 0, .undo [] D⟩]⟩ : Engine α) := by
      intro s
      refine ⟨by simpa [view, unionAt] using den_empty D h1 s, by intro c hc; simp at hc, rfl, _, [], rfl, rfl, by simp⟩
    have hl : ∀ s s' : Nat × Nat, onlyIn (⟨s, 1, [], [], D, [], [⟨⟨0, 0, 0⟩, 0, .undo [] D⟩]⟩ : Engine α)
        ⟨s', 1, [], [], D, [], [⟨⟨0, 0, 0⟩, 0, .undo [] D⟩]⟩ = [] := by
      intro s s'
      rw [onlyIn, List.filter_eq_nil_iff]; simp
    refine ⟨[], fun _ => 0, fun _ => 0, ?_⟩
    rw [← ha, ← hb]
    refine ⟨⟨by simp, by simp, by simp, by simp⟩, hp _, hp _, ?_, hs, ?_, ?_, by simp⟩
    · intro A1 x A2 B1 y B2 hA
      rw [hl] at hA; simp at hA
    · rw [hl]; simp
    · rw [hl]; simp
  | editLeft _ p g t d hd he ih =>
    obtain ⟨Z, pr, grp, h⟩ := ih
    exact h.tryEdit hd he
  | editRight _ p g t d hd he ih =>
    obtain ⟨Z, pr, grp, h⟩ := ih
    obtain ⟨Z', pr', grp', h'⟩ := h.swap.tryEdit hd he
    exact ⟨Z', pr', grp', h'.swap⟩
  | mergeLeft _ hm ih =>
    obtain ⟨Z, pr, grp, h⟩ := ih
    obtain ⟨a', h1, h2, _⟩ := h.merge
    rw [hm] at h1; cases h1
    exact ⟨Z, pr, grp, h2⟩
  | mergeRight _ hm ih =>
    obtain ⟨Z, pr, grp, h⟩ := ih
    obtain ⟨a', h1, h2, _⟩ := h.swap.merge
    rw [hm] at h1; cases h1
    exact ⟨Z, pr, grp, h2.swap⟩

theorem Peer.text {Z : List (Chr α)} {pr grp : RevId → Nat} {e : Engine α} (h : Peer Z pr grp e) :
    e.text = shownText e.knows Z := by
  rw [h.den.text_visible, h.undone, visibleText, view, unionAt, shownText, List.filter_map, List.map_map,
    List.filter_filter]
  have : (val ∘ Chr.only (ids e.revs) : Chr α → α) = val := by funext c; rfl
  rw [this]
  congr 1
  apply List.filter_congr
  intro c _
  simp only [Function.comp, visible, Chr.only, shown, present, Engine.knows, ids, List.all_filter]
  cases c.insBy with
  | none => simp
  | some a =>
    rw [Bool.eq_iff_iff]; simp [and_comm]

/-- The state of a replica is determined by what it knows of the document. -/
theorem Peer.same {Z : List (Chr α)} {pr grp : RevId → Nat} {a b : Engine α} (ha : Peer Z pr grp a)
    (hb : Peer Z pr grp b) (hk : ∀ x, x ∈ ids a.revs ↔ x ∈ ids b.revs) :
    a.text = b.text ∧ a.tombstones = b.tombstones ∧ a.deletesFromUnion = b.deletesFromUnion := by
  have hv := view_congr hk Z
  have hcnt : (view (ids a.revs) Z).map (cnt a.undoneGroups (ids a.revs)) =
      (view (ids b.revs) Z).map (cnt b.undoneGroups (ids b.revs)) := by
    rw [hv, ha.undone, hb.undone]
    apply List.map_congr_left
    intro c _
    have : ∀ x, (ids a.revs).contains x = (ids b.revs).contains x := by
      intro x
      rw [Bool.eq_iff_iff, List.contains_iff_mem, List.contains_iff_mem]; exact hk x
    unfold cnt
    simp only [this]
  refine ⟨?_, ?_, ?_⟩
  · rw [ha.den.text, hb.den.text, hcnt, hv]
  · rw [ha.den.tombs, hb.den.tombs, hcnt, hv]
  · have h1 := ha.den.dels
    rw [hcnt] at h1
    exact h1.ext hb.den.dels

theorem filter_length_ones (L : List (Chr α)) (f : Chr α → Bool) :
    (L.filter f).length = (L.map (fun c => if f c then 1 else 0)).length -
      zeros (L.map (fun c => if f c then 1 else 0)) := by
  induction L with
  | nil => simp
  | cons c L ih =>
    have := zeros_le_length (L.map (fun c => if f c then 1 else 0))
    by_cases hc : f c = true
    · simp only [hc, List.filter_cons, if_true, List.length_cons, List.map_cons, ih]
      simp [zeros] at this ⊢
      omega
    · simp only [hc, List.filter_cons, List.length_cons, List.map_cons]
      simp [zeros] at this ih ⊢
      omega

theorem Peer.counts {Z : List (Chr α)} {pr grp : RevId → Nat} (hz : ZOk Z grp) {e : Engine α} (h : Peer Z pr grp e) :
    CountsOf Z e := by
  intro r hr p g ins del he
  obtain ⟨pre, post, hs⟩ := List.append_of_mem hr
  obtain ⟨r0, rest, h1, _⟩ := h.head
  have hok := h.den.revsOk.rev pre r post hs
  have hsub : ∀ x ∈ ids pre, x ∈ ids e.revs := by
    intro x hx; rw [hs, ids_append]; exact List.mem_append_left _ hx
  have hrm : r.revId ∈ ids e.revs := mem_ids.2 ⟨r, hr, rfl⟩
  rw [revOk_view hsub hrm, RevOk, he] at hok
  simp only at hok
  have key : ∀ f : Chr α → Bool, (∀ c ∈ Z, f c = true → c.present (ids pre ++ [r.revId]) = true) →
      Z.filter f = (unionAt Z (ids pre ++ [r.revId])).filter f := by
    intro f hf
    unfold unionAt
    rw [List.filter_filter]
    apply List.filter_congr
    intro c hc
    by_cases hfc : f c = true
    · simp [hfc, hf c hc hfc]
    · simp [hfc]
  refine ⟨?_, ?_⟩
  · rw [hok.1.len, hok.1.lenAfterDelete, key, filter_length_ones]
    · rfl
    · intro c hc hi
      rw [present_snoc_iff, hi]; simp
  · rw [hok.2.len, hok.2.lenAfterDelete, key, filter_length_ones]
    · rfl
    · intro c hc hd
      cases pre with
      | nil =>
        -- the first revision: nothing precedes it
        obtain ⟨dl, d1, d2⟩ := deletedBy_iff.1 hd
        have hp := h.closed c hc dl d1 (by rw [d2]; exact hrm)
        have hm : c.only (ids e.revs) ∈ view (ids e.revs) Z :=
          List.mem_map_of_mem (List.mem_filter.2 ⟨hc, hp⟩)
        exact (h.den.revsOk.chr _ hm).order ([] ++ [r]) post (by rw [hs]; simp) dl
          (by unfold Chr.only; simp only [List.mem_filter]; exact ⟨d1, by rw [d2]; simpa using hrm⟩)
          (by rw [d2]; simp)
      | cons x pre =>
        rw [hs] at h1
        simp only [List.cons_append, List.cons.injEq] at h1
        obtain ⟨rfl, h2⟩ := h1
        have := (h.hist hz (r0 := x) (rest := pre ++ r :: post) (by rw [hs]; rfl)) pre r post rfl
        refine present_mono ?_ (this.2.2 c hc hd)
        intro y hy
        simp only [ids_cons, List.mem_append, List.mem_cons, List.not_mem_nil, or_false] at hy ⊢
        grind

end Xi
