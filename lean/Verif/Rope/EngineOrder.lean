import Verif.Rope.MergeNet

/-!
# The order of insertions at the same place
-/

namespace Xi

variable {α : Type}

open Chr

theorem rebaseMask_head {after : Bool} {I : List Nat} (h : ∀ i ∈ I.head?, i = 0) (X : List Nat) : ∀ i ∈ (rebaseMask after I X).head?, i = 0 := by
  intro i hi
  cases I with
  | nil => rw [rebaseMask_nil] at hi; cases X <;> simp [List.replicate_succ] at hi; exact hi.symm
  | cons j I =>
    have : j = 0 := h j (by simp)
    subst this
    cases X with
    | nil => rw [rebaseMask_cons_nil] at hi; simpa using hi.symm
    | cons x X =>
      by_cases hx : x = 0
      · subst hx; rw [rebaseMask_zero_zero] at hi; simpa using hi.symm
      · rw [rebaseMask_right _ _ hx (Or.inr rfl)] at hi; simpa using hi.symm

/-- Where a new insertion (first) meets an older one (second), it comes after it if `after`, and before it otherwise. -/
theorem rebase_ord (after : Bool) : ∀ J K : List Nat, zeros J = zeros K →
    Ord (fun x : Nat × Nat => x.1 != 0) (fun x => x.2 != 0) (!after) ((rebaseMask after J K).zip (expandMask (rebaseMask after J K) K)) := by
  refine rebase_induction (after := after) ?_ ?_ ?_ ?_
  · cases after <;> simp [rebaseMask_nil, Ord, NoAdj]
  · intro I X h ih
    rw [rebaseMask_zero_zero]
    simp only [expandMask, List.zip_cons_cons]
    unfold Ord at ih ⊢
    cases after
    · exact NoAdj.cons_of (by simpa using ih) (by simp)
    · exact NoAdj.cons_of (by simpa using ih) (by simp)
  · intro I x X hx h hs ih
    rw [rebaseMask_right' _ _ hx hs]
    simp only [expandMask, List.zip_cons_cons]
    unfold Ord at ih ⊢
    cases after
    · refine NoAdj.cons_of (by simpa using ih) (fun _ y hy => ?_)
      have h0 := rebaseMask_head (after := false) (by simpa using hs) X
      cases hr : rebaseMask false I X with
      | nil => rw [hr] at hy; simp at hy
      | cons j R =>
        rw [hr] at hy h0
        have hj := h0 j (by simp)
        subst hj
        cases he : expandMask (0 :: R) X with
        | nil => rw [he] at hy; simp at hy
        | cons z E => rw [he] at hy; simp at hy; rw [← hy]; rfl
    · exact NoAdj.cons_of (by simpa using ih) (by simp)
  · intro i I X hi h hs ih
    rw [rebaseMask_left' _ _ hi hs, expandMask_left hi, List.zip_cons_cons]
    unfold Ord at ih ⊢
    cases after
    · exact NoAdj.cons_of (by simpa using ih) (by simp)
    · refine NoAdj.cons_of (by simpa using ih) (fun _ y hy => ?_)
      have hs := hs rfl
      cases hr : rebaseMask true I X with
      | nil => rw [hr] at hy; simp at hy
      | cons j R =>
        rw [hr] at hy
        by_cases hj : j = 0
        · subst hj
          cases X with
          | nil => simp only [expandMask, List.zip_cons_cons, List.head?_cons, Option.mem_def, Option.some.injEq] at hy; rw [← hy]; rfl
          | cons x X =>
            have : x = 0 := hs x (by simp)
            subst this
            simp only [expandMask, List.zip_cons_cons, List.head?_cons, Option.mem_def, Option.some.injEq] at hy
            rw [← hy]; rfl
        · rw [expandMask_left hj] at hy
          simp only [List.zip_cons_cons, List.head?_cons, Option.mem_def, Option.some.injEq] at hy
          rw [← hy]; rfl

theorem marks_expand {n r : RevId} (hne : n ≠ r) : ∀ W : List (Chr α),
    W.map (insMark r) = expandMask (W.map (insMark n)) ((W.filter (fun c => !c.insertedBy n)).map (insMark r)) := by
  intro W
  induction W with
  | nil => rfl
  | cons c W ih =>
    by_cases hc : c.insertedBy n = true
    · rw [List.filter_cons, if_neg (by simp [hc])]
      have h1 : c.insMark n = 1 := by rw [insMark_of, if_pos hc]
      have h2 : c.insMark r = 0 := by rw [insMark_of, insertedBy_disjoint hne c hc]; rfl
      rw [List.map_cons, List.map_cons, h1, h2, expandMask_left (by simp), ih]
    · rw [List.filter_cons, if_pos (by simpa using hc)]
      have h1 : c.insMark n = 0 := by rw [insMark_of, if_neg hc]
      rw [List.map_cons, List.map_cons, List.map_cons, h1, expandMask, ih]

theorem ord_marks {n r : RevId} {a : Bool} {W : List (Chr α)}
    (h : Ord (fun x : Nat × Nat => x.1 != 0) (fun x => x.2 != 0) a ((W.map (insMark n)).zip (W.map (insMark r)))) :
    Ord (insertedBy n) (insertedBy r) a W := by
  rw [show (W.map (insMark n)).zip (W.map (insMark r)) = W.map (fun c => (c.insMark n, c.insMark r)) by
    rw [List.zip_map', ], ord_map] at h
  have e : ∀ id : RevId, (fun c : Chr α => c.insMark id != 0) = insertedBy id := by
    intro id; funext c; rw [insMark_of]; cases c.insertedBy id <;> rfl
  have e1 : (fun x : Nat × Nat => x.1 != 0) ∘ (fun c : Chr α => (c.insMark n, c.insMark r)) = insertedBy n := e n
  have e2 : (fun x : Nat × Nat => x.2 != 0) ∘ (fun c : Chr α => (c.insMark n, c.insMark r)) = insertedBy r := e r
  rw [e1, e2] at h
  exact h

theorem unionAt_old {l l' : List (Chr α)} {n : RevId} (hold : (l'.filter (fun c => !c.insertedBy n)).map (undelete n) = l) {S : List RevId} (hn : n ∉ S) (id : RevId) :
    (unionAt l S).map (insMark id) = (unionAt l' S).map (insMark id) := by
  rw [← hold, show unionAt ((l'.filter (fun c => !c.insertedBy n)).map (undelete n)) S =
    (unionAt (l'.filter (fun c => !c.insertedBy n)) S).map (undelete n) by unfold unionAt; rw [List.filter_map]; rfl, unionAt_filter_not hn, List.map_map]
  rfl

theorem RevsOk.not_insertedBy_undo {l : List (Chr α)} {revs pre post : List Revision} {r : Revision} (h : RevsOk l revs) (hs : revs = pre ++ r :: post)
    (hg : r.group? = none) {c : Chr α} (hc : c ∈ l) : ¬ c.insertedBy r.revId = true := by
  unfold insertedBy
  cases hi : c.insBy with
  | none => simp
  | some a =>
    have : a.id ≠ r.revId := fun he => by
      have := h.lab_group hs ((h.chr c hc).insLab a hi) he
      rw [hg] at this; cases this
    simp [this]

/-- The new insertions of `n`, among those of the revisions `post`. -/
theorem carry_order {l l' : List (Chr α)} {revs : List Revision} {n : RevId} (hk : RevsOk l revs) (hn : n ∉ ids revs)
    (hold : (l'.filter (fun c => !c.insertedBy n)).map (undelete n) = l) (prio : FullPriority) : ∀ (post pre : List Revision), revs = pre ++ post →
    ∀ J0 : List Nat, zeros J0 = (unionAt l (ids pre)).length → l'.map (insMark n) = carryMask prio J0 post →
    (unionAt l' (ids pre ++ [n])).map (insMark n) = J0 ∧
      ∀ P r Q p g i d, post = P ++ r :: Q → r.edit = .edit p g i d →
        Ord (insertedBy n) (insertedBy r.revId) (!(prio.ge ⟨p, r.revId.sessionId⟩)) (unionAt l' (ids (pre ++ P) ++ [r.revId, n])) := by
  intro post
  induction post with
  | nil =>
    intro pre hs J0 _ hJ
    rw [List.append_nil] at hs
    refine ⟨?_, by intro P r Q p g i d h; simp at h⟩
    rw [← hs]
    have : unionAt l' (ids revs ++ [n]) = l' := by
      unfold unionAt
      rw [List.filter_eq_self]
      intro c hc
      rw [present_snoc_iff]
      by_cases hi : c.insertedBy n = true
      · simp [hi]
      · have h1 : undelete n c ∈ l := by
          rw [← hold]
          exact List.mem_map_of_mem (List.mem_filter.2 ⟨hc, by simpa using hi⟩)
        have h2 : undelete n c ∈ unionAt l (ids revs) := by rw [hk.unionAt_all]; exact h1
        have := (List.mem_filter.1 h2).2
        rw [present_undelete] at this
        simp [this]
    rw [this, hJ]; rfl
  | cons r post ih =>
    intro pre hs J0 hz hJ
    have hrn : n ≠ r.revId := by rintro rfl; exact hn (by rw [hs]; simp)
    have hnp : n ∉ ids pre := by intro hm; exact hn (by rw [hs, ids_append]; simp [hm])
    have hrp : r.revId ∉ ids pre := by
      have := hk.nodup
      rw [hs, ids_append, ids_cons, List.nodup_append] at this
      intro hm; exact this.2.2 _ hm _ (by simp) rfl
    have hids : ids (pre ++ [r]) = ids pre ++ [r.revId] := by rw [ids_append]; rfl
    have hdrop : (unionAt l' (ids (pre ++ [r]) ++ [n])).filter (fun c => !c.insertedBy r.revId) = unionAt l' (ids pre ++ [n]) := by
      refine unionAt_drop ?_ ?_
      · simp only [List.mem_append, List.mem_singleton]; grind
      · intro x; rw [hids]; simp only [List.mem_append, List.mem_singleton]; grind
    have hnew : (unionAt l' (ids (pre ++ [r]) ++ [n])).filter (fun c => !c.insertedBy n) = unionAt l' (ids (pre ++ [r])) := by
      refine unionAt_drop ?_ ?_
      · rw [hids]; simp only [List.mem_append, List.mem_singleton]; grind
      · intro x; simp only [List.mem_append, List.mem_singleton]
    have hn' : n ∉ ids (pre ++ [r]) := by rw [hids]; simp only [List.mem_append, List.mem_singleton]; grind
    have hr := hk.rev pre r post hs
    unfold RevOk at hr
    cases he : r.edit with
    | edit p g i d =>
      rw [he] at hr
      simp only at hr
      have hK : i.counts = (unionAt l' (ids (pre ++ [r]))).map (insMark r.revId) := by
        rw [hr.1.2, ← hids]; exact unionAt_old hold hn' _
      have hzK : zeros J0 = zeros i.counts := by rw [hz, hr.1.2, hk.insMask_zeros hs]
      rw [carryMask, he] at hJ
      obtain ⟨h1, h2⟩ := ih (pre ++ [r]) (by simp [hs]) _ (by
        rw [rebaseMask_zeros_eq _ _ hzK, hr.1.2]; simp [hids]) hJ
      have hm := marks_expand hrn (unionAt l' (ids (pre ++ [r]) ++ [n]))
      rw [hnew, ← hK, h1] at hm
      refine ⟨?_, ?_⟩
      · rw [← hdrop]
        have e : (fun c : Chr α => !c.insertedBy r.revId) = fun c => c.insMark r.revId == 0 := by
          funext c; rw [insMark_of]; cases c.insertedBy r.revId <;> rfl
        rw [e, ← keep_map, hm, h1]
        exact keep_rebase _ _ hzK
      · intro P r' Q p' g' i' d' hP he'
        cases P with
        | nil =>
          simp only [List.nil_append, List.cons.injEq] at hP
          obtain ⟨rfl, _⟩ := hP
          rw [he] at he'
          cases he'
          rw [List.append_nil, unionAt_congr (T := ids (pre ++ [r]) ++ [n]) (by intro x; rw [hids]; simp)]
          apply ord_marks
          rw [hm, h1]
          exact rebase_ord _ _ _ hzK
        | cons q P =>
          simp only [List.cons_append, List.cons.injEq] at hP
          obtain ⟨rfl, hP⟩ := hP
          have := h2 P r' Q p' g' i' d' hP he'
          simpa using this
    | undo t x =>
      rw [carryMask, he] at hJ
      have hu : unionAt l (ids (pre ++ [r])) = unionAt l (ids pre) := by
        rw [hids]; exact hk.unionAt_undo hs (by simp [Revision.group?, he])
      obtain ⟨h1, h2⟩ := ih (pre ++ [r]) (by simp [hs]) J0 (by rw [hz, hu]) hJ
      refine ⟨?_, ?_⟩
      · rw [← hdrop, ← h1]
        congr 1
        rw [List.filter_eq_self]
        intro c hc
        have hc' : c ∈ l' := (List.mem_filter.1 hc).1
        by_cases hi : c.insertedBy r.revId = true
        · exfalso
          have hnot : c.insertedBy n = false := insertedBy_disjoint hrn.symm c hi
          have h1 : undelete n c ∈ l := by
            rw [← hold]
            exact List.mem_map_of_mem (List.mem_filter.2 ⟨hc', by simp [hnot]⟩)
          exact hk.not_insertedBy_undo hs (by simp [Revision.group?, he]) h1 hi
        · simpa using hi
      · intro P r' Q p' g' i' d' hP he'
        cases P with
        | nil =>
          simp only [List.nil_append, List.cons.injEq] at hP
          obtain ⟨rfl, _⟩ := hP
          rw [he] at he'; cases he'
        | cons q P =>
          simp only [List.cons_append, List.cons.injEq] at hP
          obtain ⟨rfl, hP⟩ := hP
          have := h2 P r' Q p' g' i' d' hP he'
          simpa using this

end Xi
