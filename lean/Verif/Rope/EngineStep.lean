import Verif.Rope.EngineInv

/-!
# Undo and edits preserve the engine invariant
-/

namespace Xi

variable {α : Type}

open Chr

/-! ### Sets of groups -/

theorem mem_symDiff {x : Nat} {a b : List Nat} : x ∈ symDiff a b ↔ (x ∈ a ∧ x ∉ b) ∨ (x ∈ b ∧ x ∉ a) := by
  simp [symDiff]

theorem contains_eq_of_not_symDiff {x : Nat} {a b : List Nat} (h : x ∉ symDiff a b) :
    a.contains x = b.contains x := by
  rw [mem_symDiff] at h
  by_cases h1 : x ∈ a <;> by_cases h2 : x ∈ b <;> simp_all

/-- The same set of groups. -/
def GEq (a b : List Nat) : Prop := ∀ x, a.contains x = b.contains x

theorem GEq.refl (a) : GEq a a := fun _ => rfl
theorem GEq.symm {a b} (h : GEq a b) : GEq b a := fun x => (h x).symm
theorem GEq.trans {a b c} (h1 : GEq a b) (h2 : GEq b c) : GEq a c := fun x => (h1 x).trans (h2 x)

theorem GEq.symDiff {a b} (h : GEq a b) (t) : GEq (symDiff a t) (symDiff b t) := by
  intro x
  have := h x
  rw [Bool.eq_iff_iff] at this ⊢
  simp only [List.contains_iff_mem, mem_symDiff] at *
  rw [this]

theorem symDiff_symDiff (a b : List Nat) : GEq (symDiff b (symDiff a b)) a := by
  intro x
  rw [Bool.eq_iff_iff]
  simp only [List.contains_iff_mem, mem_symDiff]
  by_cases h1 : x ∈ a <;> by_cases h2 : x ∈ b <;> simp_all

theorem Chr.cnt_congr {G G' : List Nat} (h : GEq G G') (p) (c : Chr α) : c.cnt G p = c.cnt G' p := by
  have h' : ∀ x, G.contains x = G'.contains x := h
  unfold Chr.cnt; simp only [h']

theorem cntMask_congr {G G' : List Nat} (h : GEq G G') (l : List (Chr α)) (p) : cntMask l G p = cntMask l G' p := by
  rw [cntMask, cntMask, show (Chr.cnt G p : Chr α → Nat) = Chr.cnt G' p from funext (Chr.cnt_congr h p)]

theorem backStep_congr {G G' : List Nat} (h : GEq G G') (inv E r) :
    (backStep inv (E, G) r).1 = (backStep inv (E, G') r).1 ∧
    GEq (backStep inv (E, G) r).2 (backStep inv (E, G') r).2 := by
  unfold backStep
  cases r.edit with
  | edit p g ins del => simp only [h g]; split <;> exact ⟨rfl, h⟩
  | undo t x =>
    cases inv
    · exact ⟨rfl, h⟩
    · exact ⟨rfl, h.symDiff t⟩

theorem backTo_congr {G G' : List Nat} (h : GEq G G') (inv E post) :
    (backTo inv (E, G) post).1 = (backTo inv (E, G') post).1 ∧
    GEq (backTo inv (E, G) post).2 (backTo inv (E, G') post).2 := by
  induction post with
  | nil => exact ⟨rfl, h⟩
  | cons r post ih =>
    rw [backTo_cons, backTo_cons]
    have := backStep_congr ih.2 inv (backTo inv (E, G) post).1 r
    rw [ih.1] at this
    refine ⟨?_, ?_⟩
    · rw [show backTo inv (E, G) post = ((backTo inv (E, G) post).1, (backTo inv (E, G) post).2) from rfl, ih.1]
      exact this.1
    · rw [show backTo inv (E, G) post = ((backTo inv (E, G) post).1, (backTo inv (E, G) post).2) from rfl, ih.1]
      exact this.2

/-! ### findLastIdx -/

theorem findLastIdx_some {β : Type} {p : β → Bool} {l : List β} {i : Nat} (h : findLastIdx p l = some i) :
    ∃ pre x post, l = pre ++ x :: post ∧ pre.length = i ∧ p x = true ∧ ∀ y ∈ post, p y = false := by
  induction l generalizing i with
  | nil => simp [findLastIdx] at h
  | cons x xs ih =>
    rw [findLastIdx] at h
    cases hf : findLastIdx p xs with
    | some j =>
      rw [hf] at h
      obtain ⟨pre, y, post, h1, h2, h3, h4⟩ := ih hf
      simp at h
      exact ⟨x :: pre, y, post, by simp [h1], by simp [h2, h], h3, h4⟩
    | none =>
      rw [hf] at h
      simp only [Option.ite_none_right_eq_some, Option.some.injEq] at h
      refine ⟨[], x, xs, rfl, h.2, h.1, ?_⟩
      clear ih h
      induction xs with
      | nil => simp
      | cons y ys ih =>
        rw [findLastIdx] at hf
        cases hg : findLastIdx p ys with
        | some j => rw [hg] at hf; simp at hf
        | none =>
          rw [hg] at hf
          simp only [ite_eq_right_iff, reduceCtorEq, imp_false, Bool.not_eq_true] at hf
          intro z hz
          rcases List.mem_cons.1 hz with rfl | hz
          · exact hf
          · exact ih hg z hz

theorem findLastIdx_none {β : Type} {p : β → Bool} {l : List β} :
    findLastIdx p l = none ↔ ∀ x ∈ l, p x = false := by
  induction l with
  | nil => simp [findLastIdx]
  | cons x xs ih =>
    rw [findLastIdx]
    cases hf : findLastIdx p xs with
    | some j =>
      simp only [reduceCtorEq, false_iff]
      intro h
      rw [ih.2 (fun y hy => h y (by simp [hy]))] at hf
      cases hf
    | none =>
      simp only [List.mem_cons, forall_eq_or_imp]
      rw [hf] at ih
      simp only [ite_eq_right_iff, reduceCtorEq, imp_false, Bool.not_eq_true]
      exact ⟨fun h => ⟨h, ih.1 rfl⟩, fun h => h.1⟩

theorem findLastIdx_last {β : Type} {p : β → Bool} (l : List β) (x : β) (h : p x = true) :
    findLastIdx p (l ++ [x]) = some l.length := by
  induction l with
  | nil => simp [findLastIdx, h]
  | cons y l ih => rw [List.cons_append, findLastIdx, ih]; simp

/-! ### Extending the labelled text by one revision -/

/-- `l'` is `l` with the insertions and deletions of one more edit. -/
structure Ext (lab : Lab) (l l' : List (Chr α)) : Prop where
  old : (l'.filter (fun c => c.insMark lab.id == 0)).map (undelete lab.id) = l
  new : ∀ c ∈ l', c.insMark lab.id ≠ 0 → c.insBy = some lab ∧ c.delBy = []
  del : ∀ c ∈ l', ∀ d ∈ c.delBy, d.id = lab.id → d = lab
  nodup : ∀ c ∈ l', (c.delBy.map Lab.id).Nodup

namespace Chr

variable {id : RevId} {p : List RevId} (c : Chr α)

@[simp] theorem present_undelete : (c.undelete id).present p = c.present p := rfl
@[simp] theorem insMark_undelete (id') : (c.undelete id).insMark id' = c.insMark id' := rfl
@[simp] theorem val_undelete : (c.undelete id).val = c.val := rfl

theorem cnt_undelete (h : id ∉ p) (G) : (c.undelete id).cnt G p = c.cnt G p := by
  unfold cnt undelete
  simp only [List.countP_filter]
  congr 1
  apply List.countP_congr
  intro d _
  by_cases hd : d.id = id
  · subst hd; simp [h]
  · simp [hd]

theorem delMark_undelete {id' : RevId} (h : id' ≠ id) : (c.undelete id).delMark id' = c.delMark id' := by
  unfold delMark deletedBy undelete
  simp only [List.any_filter]
  congr 2
  rw [Bool.eq_iff_iff, List.any_eq_true, List.any_eq_true]
  constructor
  · rintro ⟨d, h1, h2⟩; exact ⟨d, h1, by simp_all⟩
  · rintro ⟨d, h1, h2⟩; exact ⟨d, h1, by simp_all⟩

theorem insMark_eq_zero_of_present (h : id ∉ p) (hc : c.present p = true) : c.insMark id = 0 := by
  unfold insMark insertedBy
  unfold present at hc
  cases hi : c.insBy with
  | none => simp
  | some a =>
    rw [hi] at hc
    simp only [List.contains_iff_mem] at hc
    have : a.id ≠ id := fun he => h (he ▸ hc)
    simp [this]

end Chr

namespace Ext

variable {lab : Lab} {l l' : List (Chr α)}

theorem unionAt (h : Ext lab l l') {p : List RevId} (hp : lab.id ∉ p) :
    (unionAt l' p).map (undelete lab.id) = Xi.unionAt l p := by
  rw [← h.old, Xi.unionAt, Xi.unionAt, List.filter_map, List.filter_filter]
  congr 1
  apply List.filter_congr
  intro c _
  by_cases hc : c.present p = true
  · simp [hc, c.insMark_eq_zero_of_present hp hc]
  · simp [hc]

theorem map_unionAt (h : Ext lab l l') {p : List RevId} (hp : lab.id ∉ p) {γ : Type} (f : Chr α → γ)
    (hf : ∀ c, f (c.undelete lab.id) = f c) : (Xi.unionAt l' p).map f = (Xi.unionAt l p).map f := by
  rw [← h.unionAt hp, List.map_map]
  apply List.map_congr_left
  intro c _
  exact (hf c).symm

theorem cntMask (h : Ext lab l l') {p : List RevId} (hp : lab.id ∉ p) (G) :
    cntMask l' G p = Xi.cntMask l G p :=
  h.map_unionAt hp _ (fun c => c.cnt_undelete hp G)

theorem mem_old (h : Ext lab l l') {c : Chr α} (hc : c ∈ l') (hi : c.insMark lab.id = 0) :
    c.undelete lab.id ∈ l := by
  rw [← h.old]
  exact List.mem_map_of_mem (List.mem_filter.2 ⟨hc, by simp [hi]⟩)

theorem revOk (h : Ext lab l l') {p : List RevId} {r : Revision} (hp : lab.id ∉ p) (hr : lab.id ≠ r.revId)
    (hk : RevOk l p r) : RevOk l' p r := by
  have hp' : lab.id ∉ p ++ [r.revId] := by simp [hp, hr]
  unfold RevOk at *
  cases he : r.edit with
  | edit pr g ins del =>
    rw [he] at hk
    simp only at *
    rw [h.map_unionAt hp' _ (fun c => c.insMark_undelete _),
      h.map_unionAt hp' _ (fun c => c.delMark_undelete (Ne.symm hr))]
    exact hk
  | undo t x =>
    rw [he] at hk
    simp only at *
    rw [← h.unionAt hp] at hk
    simpa using hk

/-- Appending a revision to the log. -/
theorem revsOk (h : Ext lab l l') {revs : List Revision} {r : Revision} (hk : RevsOk l revs)
    (hid : r.revId = lab.id) (hf : lab.id ∉ ids revs)
    (hg : r.group? = some lab.group ∨ ∀ c ∈ l', c.insMark lab.id = 0 ∧ c.delMark lab.id = 0)
    (hr : RevOk l' (ids revs) r) : RevsOk l' (revs ++ [r]) := by
  refine ⟨?_, ?_, ?_⟩
  · rw [ids_append, List.nodup_append]
    refine ⟨hk.nodup, by simp [ids], ?_⟩
    intro a ha b hb
    simp [ids] at hb
    subst hb
    rintro rfl
    exact hf (hid ▸ ha)
  · intro c hc
    have hlabel : ∀ a : Lab, (a.id = lab.id → a = lab ∧ (c.insMark lab.id ≠ 0 ∨ c.delMark lab.id ≠ 0)) →
        (a.id ≠ lab.id → ∃ r ∈ revs, r.revId = a.id ∧ r.group? = some a.group) →
        ∃ r' ∈ revs ++ [r], r'.revId = a.id ∧ r'.group? = some a.group := by
      intro a h1 h2
      by_cases ha : a.id = lab.id
      · obtain ⟨h3, h4⟩ := h1 ha
        subst h3
        refine ⟨r, by simp, hid, ?_⟩
        rcases hg with hg | hg
        · exact hg
        · have := hg c hc; omega
      · obtain ⟨r', h3, h4⟩ := h2 ha
        exact ⟨r', by simp [h3], h4⟩
    by_cases hi : c.insMark lab.id = 0
    · have hold := hk.chr _ (h.mem_old hc hi)
      refine ⟨?_, ?_, h.nodup c hc, ?_⟩
      · intro a ha
        apply hlabel a
        · intro hid'
          unfold insMark insertedBy at hi
          simp [ha, hid'] at hi
        · intro _; exact hold.insLab a ha
      · intro d hd
        apply hlabel d
        · intro hid'
          refine ⟨h.del c hc d hd hid', Or.inr ?_⟩
          unfold delMark deletedBy
          rw [if_pos]
          · simp
          · rw [List.any_eq_true]; exact ⟨d, hd, by simp [hid']⟩
        · intro hne
          exact hold.delLab d (List.mem_filter.2 ⟨hd, by simpa using hne⟩)
      · intro pre post hs d hd hm
        by_cases hl : lab.id ∈ ids pre
        · -- the new revision is in `pre`, so `pre` is everything
          have hall : ∀ x, x ∈ ids revs → x ∈ ids pre := by
            intro x hx
            rcases List.append_eq_append_iff.1 hs with ⟨a, h1, h2⟩ | ⟨a, h1, h2⟩
            · rw [h1]; simp [hx]
            · cases a with
              | nil => rw [h1] at hx; simpa using hx
              | cons y a =>
                exfalso
                apply hf
                rw [h1]; simp [hl]
          have := hk.present_all (h.mem_old hc hi)
          rw [present_undelete] at this
          unfold present at this ⊢
          cases hib : c.insBy with
          | none => rfl
          | some a =>
            rw [hib] at this
            simp only [List.contains_iff_mem] at this ⊢
            exact hall _ this
        · have hne : d.id ≠ lab.id := fun he => hl (he ▸ hm)
          have hpre : ∃ post', revs = pre ++ post' := by
            rcases List.append_eq_append_iff.1 hs with ⟨a, h1, h2⟩ | ⟨a, h1, h2⟩
            · cases a with
              | nil => exact ⟨[], by simp at h1; simp [h1]⟩
              | cons y a =>
                exfalso
                apply hl
                have : y = r := by simp at h2; exact h2.1.symm
                rw [h1, this]; simp [ids, hid]
            · exact ⟨a, h1⟩
          obtain ⟨post', hp⟩ := hpre
          have := hold.order pre post' hp d (List.mem_filter.2 ⟨hd, by simpa using hne⟩) hm
          simpa using this
    · obtain ⟨h1, h2⟩ := h.new c hc hi
      refine ⟨?_, by simp [h2], by simp [h2], by simp [h2]⟩
      intro a ha
      rw [h1] at ha
      cases ha
      exact hlabel lab (fun _ => ⟨rfl, Or.inl hi⟩) (fun hne => absurd rfl hne)
  · intro pre r' post hs
    rcases List.eq_nil_or_concat post with rfl | ⟨post', x, rfl⟩
    · have : pre = revs ∧ r' = r := by
        have := List.append_inj' hs (by simp)
        simp at this; exact ⟨this.1.symm, this.2.symm⟩
      rw [this.1, this.2]; exact hr
    · have hs' : revs = pre ++ r' :: post' := by
        have : revs ++ [r] = (pre ++ r' :: post') ++ [x] := by simp [hs]
        exact (List.append_inj' this rfl).1
      have h1 : lab.id ∉ ids pre := fun hm => hf (by rw [hs']; simp [hm])
      have h2 : lab.id ≠ r'.revId := fun he => hf (by rw [hs']; simp [he])
      exact h.revOk h1 h2 (hk.rev pre r' post' hs')

end Ext

/-- An undo extends the log but not the labelled text. -/
theorem Ext.self {l : List (Chr α)} {revs : List Revision} (hk : RevsOk l revs) {id : RevId} (hf : id ∉ ids revs)
    (g : Nat) : Ext ⟨id, g⟩ l l ∧ ∀ c ∈ l, c.insMark id = 0 ∧ c.delMark id = 0 := by
  have h1 : ∀ c ∈ l, c.insMark id = 0 := fun c hc => c.insMark_eq_zero_of_present hf (hk.present_all hc)
  have h2 : ∀ c ∈ l, ∀ d ∈ c.delBy, d.id ≠ id := by
    intro c hc d hd he
    obtain ⟨r, h3, h4, _⟩ := (hk.chr c hc).delLab d hd
    exact hf (mem_ids.2 ⟨r, h3, h4.trans he⟩)
  refine ⟨⟨?_, ?_, ?_, fun c hc => (hk.chr c hc).nodup⟩, ?_⟩
  · rw [List.filter_eq_self.2 (fun c hc => by simp [h1 c hc])]
    conv => rhs; rw [← List.map_id l]
    apply List.map_congr_left
    intro c hc
    simp only [undelete, id_eq]
    rw [List.filter_eq_self.2 (fun d hd => by simpa using h2 c hc d hd)]
  · intro c hc hi; exact absurd (h1 c hc) hi
  · intro c hc d hd he; exact absurd he (h2 c hc d hd)
  · intro c hc
    refine ⟨h1 c hc, ?_⟩
    unfold delMark deletedBy
    rw [if_neg]
    rw [Bool.not_eq_true, List.any_eq_false]
    intro d hd
    simpa using h2 c hc d hd

/-! ### Undo -/

variable {e : Engine α} {l : List (Chr α)}

theorem Den.fresh_id (h : Den e l) : e.nextRevId ∉ ids e.revs := by
  intro hm
  obtain ⟨r, h1, h2⟩ := mem_ids.1 hm
  have := h.fresh r h1 (by rw [h2]; rfl)
  rw [h2] at this
  exact Nat.lt_irrefl _ this

theorem Den.last (h : Den e l) : ∃ pre r, e.revs = pre ++ [r] ∧ e.revs.getLast? = some r := by
  rcases List.eq_nil_or_concat e.revs with h1 | ⟨pre, r, h1⟩
  · exact absurd h1 h.ne
  · exact ⟨pre, r, by simp [h1], by simp [h1]⟩

/-- Revisions before the first candidate are not affected. -/
theorem Den.candidate (h : Den e l) (groups : List Nat) :
    ∃ pre post, e.revs = pre ++ post ∧
      pre.length = e.findFirstUndoCandidateIndex (symDiff e.undoneGroups groups) ∧
      cntMask l e.undoneGroups (ids pre) = cntMask l groups (ids pre) := by
  have key : ∀ pre post, e.revs = pre ++ post →
      (∀ r ∈ pre, ∀ g, r.group? = some g → g ∉ symDiff e.undoneGroups groups) →
      cntMask l e.undoneGroups (ids pre) = cntMask l groups (ids pre) := by
    intro pre post hs hp
    rw [cntMask, cntMask]
    apply List.map_congr_left
    intro c hc
    obtain ⟨hc1, hc2⟩ := List.mem_filter.1 hc
    have hok := h.revsOk.chr c hc1
    have hmem : ∀ (id : RevId) (g : Nat), (∃ r ∈ e.revs, r.revId = id ∧ r.group? = some g) → id ∈ ids pre →
        e.undoneGroups.contains g = groups.contains g := by
      intro id g ⟨r, h1, h2, h3⟩ hid
      obtain ⟨r', h4, h5⟩ := mem_ids.1 hid
      have : r' = r := nodup_ids_inj h.revsOk.nodup (by rw [hs]; simp [h4]) h1 (by rw [h2, h5])
      subst this
      exact contains_eq_of_not_symDiff (hp r' h4 g h3)
    unfold cnt
    congr 1
    · unfold present at hc2
      cases hi : c.insBy with
      | none => rfl
      | some a =>
        rw [hi] at hc2
        simp only at hc2 ⊢
        rw [hmem a.id a.group (hok.insLab a hi) (by simpa using hc2)]
    · apply List.countP_congr
      intro d hd
      by_cases hm : d.id ∈ ids pre
      · rw [hmem d.id d.group (hok.delLab d hd) hm]
      · simp [hm]
  unfold Engine.findFirstUndoCandidateIndex
  cases hm : (symDiff e.undoneGroups groups).min? with
  | none =>
    refine ⟨e.revs, [], by simp, rfl, key e.revs [] (by simp) ?_⟩
    intro r _ g _ hg
    rw [List.min?_eq_none_iff] at hm
    rw [hm] at hg; simp at hg
  | some lowest =>
    simp only
    cases hf : findLastIdx (fun r : Revision => decide (r.maxUndoSoFar < lowest)) e.revs with
    | none => exact ⟨[], e.revs, by simp, rfl, key [] e.revs (by simp) (by simp)⟩
    | some i =>
      obtain ⟨pre, x, post, h1, h2, h3, _⟩ := findLastIdx_some hf
      refine ⟨pre ++ [x], post, by simp [h1], by simp [h2], key _ post (by simp [h1]) ?_⟩
      intro r hr g hg hin
      have hlow : lowest ≤ g := (List.min?_eq_some_iff.1 hm).2 g hin
      have h4 := h.maxGroup r (by rw [h1]; simp at hr ⊢; rcases hr with hr | hr <;> simp [hr]) g hg
      have h5 : r.maxUndoSoFar ≤ x.maxUndoSoFar := by
        have := h.maxSorted
        rw [h1, List.map_append, List.map_cons, List.pairwise_append] at this
        simp only [List.mem_append, List.mem_singleton] at hr
        rcases hr with hr | rfl
        · exact this.2.2 _ (List.mem_map_of_mem hr) _ (by simp)
        · exact Nat.le_refl _
      simp at h3
      omega

/-- `compute_undo`. -/
theorem Den.computeUndo (h : Den e l) (groups : List Nat) :
    ∃ r D x m, e.computeUndo groups = some (r, D) ∧ D.Is (l.map (cnt groups (ids e.revs))) ∧
      r = ⟨e.nextRevId, m, .undo (symDiff e.undoneGroups groups) x⟩ ∧
      (∃ last, e.revs.getLast? = some last ∧ m = last.maxUndoSoFar) ∧
      x.Is (List.zipWith (· ^^^ ·) (l.map (cnt e.undoneGroups (ids e.revs)))
        (l.map (cnt groups (ids e.revs)))) := by
  obtain ⟨pre, post, h1, h2, h3⟩ := h.candidate groups
  obtain ⟨S, a1, a2⟩ := h.before_false h1
  rw [h3] at a2
  obtain ⟨D, b1, b2⟩ := h.revsOk.redo groups post pre h1 S a2
  obtain ⟨x, c1, c2⟩ := h.dels.bitxor b2 (by simp)
  obtain ⟨_, last, _, d2⟩ := h.last
  refine ⟨_, D, x, last.maxUndoSoFar, ?_, b2, rfl, ⟨last, d2, rfl⟩, c2⟩
  have hd : e.revs.drop pre.length = post := by rw [h1]; simp
  simp only [Engine.computeUndo, ← h2, a1, hd, b1, c1, d2, Option.bind_eq_bind, Option.bind_some, Option.pure_def]

theorem zipWith_xor_cancel (l : List (Chr α)) (f g : Chr α → Nat) :
    List.zipWith (· ^^^ ·) (l.map g) (List.zipWith (· ^^^ ·) (l.map f) (l.map g)) = l.map f := by
  rw [zipWith_map_map, zipWith_map_map]
  apply List.map_congr_left
  intro c _
  rw [Nat.xor_comm (f c), ← Nat.xor_assoc, Nat.xor_self, Nat.zero_xor]

/-- What an undo does to the engine. -/
theorem Den.undo (h : Den e l) (groups : List Nat) :
    ∃ e' r, e.undo groups = some e' ∧ Den e' l ∧ e'.undoneGroups = groups ∧ e'.session = e.session ∧
      e'.revs = e.revs ++ [r] ∧ r.revId = e.nextRevId ∧ r.group? = none ∧
      backStep true (l.map (cnt groups (ids e'.revs)), groups) r =
        (l.map (cnt e.undoneGroups (ids e.revs)), symDiff groups (symDiff e.undoneGroups groups)) := by
  obtain ⟨r, D, x, m, a1, a2, a3, ⟨last, a4, a5⟩, a6⟩ := h.computeUndo groups
  have hsh := shuffle_spec h.dels a2 (l.map val) (by simp) (by simp)
  rw [← h.text, ← h.tombs] at hsh
  have hrid : r.revId = e.nextRevId := by rw [a3]
  have hrg : r.group? = none := by rw [a3]; rfl
  obtain ⟨hext, hno⟩ := Ext.self h.revsOk h.fresh_id 0
  have hr : RevOk l (ids e.revs) r := by
    unfold RevOk; rw [a3]; simp only
    refine ⟨a6.1, ?_⟩
    rw [a6.2, h.revsOk.unionAt_all]; simp
  have hk : RevsOk l (e.revs ++ [r]) := hext.revsOk h.revsOk hrid h.fresh_id (Or.inr hno) hr
  have hcnt : ∀ G, l.map (cnt G (ids (e.revs ++ [r]))) = l.map (cnt G (ids e.revs)) := by
    intro G
    apply List.map_congr_left
    intro c hc
    rw [ids_append]
    exact hk.cnt_undo (pre := e.revs) (post := []) (by simp) hrg hc G
  have hback : backStep true (l.map (cnt groups (ids (e.revs ++ [r]))), groups) r =
        (l.map (cnt e.undoneGroups (ids e.revs)), symDiff groups (symDiff e.undoneGroups groups)) := by
    rw [hcnt, a3]
    simp only [backStep, if_true]
    rw [a6.2, zipWith_xor_cancel]
  refine ⟨{ e with
      text := keep (l.map (cnt groups (ids e.revs))) (l.map val)
      tombstones := keep (flipMask (l.map (cnt groups (ids e.revs)))) (l.map val)
      deletesFromUnion := D
      undoneGroups := groups
      revs := e.revs ++ [r]
      revIdCounter := e.revIdCounter + 1 }, r,
    by simp only [Engine.undo, a1, Option.bind_eq_bind, Option.bind_some, hsh]; rfl, ?_, rfl, rfl, rfl,
    hrid, hrg, hback⟩
  refine ⟨hk, by simp, ?_, ?_, ?_, ?_, ?_, ?_, ?_⟩
  · intro r' hr' hs
    simp only [List.mem_append, List.mem_singleton] at hr'
    rcases hr' with hr' | rfl
    · have := h.fresh r' hr' hs; exact Nat.lt_succ_of_lt this
    · rw [hrid]; exact Nat.lt_succ_self _
  · rw [List.map_append, List.pairwise_append]
    refine ⟨h.maxSorted, by simp, ?_⟩
    intro a ha b hb
    simp only [List.map_cons, List.map_nil, List.mem_singleton] at hb
    subst hb
    obtain ⟨r', h1, rfl⟩ := List.mem_map.1 ha
    rw [a3]; simp only; rw [a5]
    obtain ⟨pre, la, h2, h3⟩ := h.last
    rw [h3] at a4; cases a4
    have := h.maxSorted
    rw [h2, List.map_append, List.pairwise_append] at this
    rw [h2] at h1
    simp only [List.mem_append, List.mem_singleton] at h1
    rcases h1 with h1 | rfl
    · exact this.2.2 _ (List.mem_map_of_mem h1) _ (by simp)
    · exact Nat.le_refl _
  · intro r' hr' g hg
    simp only [List.mem_append, List.mem_singleton] at hr'
    rcases hr' with hr' | rfl
    · exact h.maxGroup r' hr' g hg
    · rw [hrg] at hg; cases hg
  · simp only [hcnt]; exact a2
  · simp only [hcnt]
  · simp only [hcnt]
  · intro pre post hs
    simp only at hs ⊢
    rcases List.eq_nil_or_concat post with rfl | ⟨post', y, rfl⟩
    · rw [List.append_nil] at hs
      rw [← hs, hk.cntMask_all]
      exact ListLe.refl _
    · have hs' : e.revs ++ [r] = (pre ++ post') ++ [y] := by simp [hs]
      obtain ⟨h1, h2⟩ := List.append_inj' hs' rfl
      simp only [List.cons.injEq, and_true] at h2
      subst h2
      rw [List.concat_eq_append, backTo_snoc, hback]
      have hg := backTo_congr (symDiff_symDiff e.undoneGroups groups) true
        (l.map (cnt e.undoneGroups (ids e.revs))) post'
      rw [hg.1, cntMask_congr hg.2]
      exact h.hist pre post' h1

end Xi
