import Verif.Rope.EngineGc

/-!
# Observable behaviour of described engine states
-/

namespace Xi

variable {α : Type}

open Chr

/-! ### Visibility -/

theorem Chr.cnt_eq_zero_iff {l : List (Chr α)} {revs : List Revision} (h : RevsOk l revs) {c : Chr α}
    (hc : c ∈ l) (G : List Nat) : c.cnt G (ids revs) = 0 ↔ c.visible G = true := by
  unfold cnt visible
  rw [Nat.add_eq_zero_iff, Bool.and_eq_true, List.countP_eq_zero, List.all_eq_true]
  have h1 : (∀ d ∈ c.delBy, ¬(((ids revs).contains d.id && !G.contains d.group) = true)) ↔
      ∀ d ∈ c.delBy, G.contains d.group = true := by
    constructor
    · intro h2 d hd
      have := h2 d hd
      obtain ⟨r, h3, h4, _⟩ := (h.chr c hc).delLab d hd
      have h5 : (ids revs).contains d.id = true := by
        rw [List.contains_iff_mem, mem_ids]; exact ⟨r, h3, h4⟩
      rw [h5] at this
      simpa using this
    · intro h2 d hd
      rw [h2 d hd]; simp
  rw [h1]
  cases c.insBy with
  | none => simp
  | some a => by_cases hg : a.group ∈ G <;> simp [hg]

variable {e : Engine α} {l : List (Chr α)}

theorem Den.text_visible (h : Den e l) : e.text = visibleText e.undoneGroups l := by
  rw [h.text, keep_map, visibleText]
  congr 1
  apply List.filter_congr
  intro c hc
  have := Chr.cnt_eq_zero_iff h.revsOk hc e.undoneGroups
  rw [Bool.eq_iff_iff, ← this]; simp

/-! ### Initial states -/

theorem Engine.empty_eq : ∃ D : Subset, D.Is [] ∧ (Engine.empty : Option (Engine α)) =
    some ⟨(1, 0), 1, [], [], D, [], [⟨⟨0, 0, 0⟩, 0, .undo [] D⟩]⟩ := by
  obtain ⟨D, h1, h2⟩ := Subset.Is.new 0
  exact ⟨D, h2, by simp [Engine.empty, h1]⟩

theorem den_empty (D : Subset) (hD : D.Is []) (s : Nat × Nat) :
    Den (⟨s, 1, [], [], D, [], [⟨⟨0, 0, 0⟩, 0, .undo [] D⟩]⟩ : Engine α) [] := by
  refine ⟨⟨by simp, by simp, ?_⟩, by simp, ?_, by simp, ?_, by simpa using hD, by simp, by simp, ?_⟩
  · intro pre r post hs
    have : r = ⟨⟨0, 0, 0⟩, 0, .undo [] D⟩ := by
      have : r ∈ pre ++ r :: post := by simp
      rw [← hs] at this; simpa using this
    rw [this]
    exact ⟨hD.1, by simp [hD.2, unionAt]⟩
  · intro r hr hs
    simp at hr; subst hr; simp
  · intro r hr g hg
    simp at hr; subst hr; simp [Revision.group?] at hg
  · intro pre post hs
    simp only at hs ⊢
    have hE : ∀ (post : List Revision), (∀ r ∈ post, r = ⟨⟨0, 0, 0⟩, 0, .undo [] D⟩) → ∀ G,
        (backTo true ([], G) post).1 = [] := by
      intro post
      induction post with
      | nil => intros; rfl
      | cons r post ih =>
        intro hp G
        rw [backTo_cons, hp r (by simp)]
        simp only [backStep, if_true]
        rw [ih (fun r hr => hp r (by simp [hr]))]
        simp
    simp only [List.map_nil]
    rw [hE post (fun r hr => by
      have : r ∈ pre ++ post := by simp [hr]
      rw [← hs] at this; simpa using this)]
    simp [cntMask, unionAt, ListLe]

/-! ### Looking up revisions -/

theorem Engine.findRevToken_some {tok : RevId → Nat} {t ix : Nat} (h : e.findRevToken tok t = some ix) :
    ∃ pre r post, e.revs = pre ++ r :: post ∧ pre.length = ix ∧ tok r.revId = t ∧
      ∀ r' ∈ post, tok r'.revId ≠ t := by
  obtain ⟨pre, r, post, h1, h2, h3, h4⟩ := findLastIdx_some h
  exact ⟨pre, r, post, h1, h2, by simpa using h3, fun r' hr' => by simpa using h4 r' hr'⟩

theorem Den.getRev (h : Den e l) {tok : RevId → Nat} {t : Nat} {pre post : List Revision} {r : Revision}
    (hs : e.revs = pre ++ r :: post) (ht : e.findRevToken tok t = some pre.length) :
    e.getRev tok t = some (some (keep (revMask e l post) (l.map val))) := by
  rw [Engine.getRev, ht]
  simp only [h.rev_content hs, Option.map_some]

theorem Den.revMask_nil (h : Den e l) : revMask e l [] = l.map (cnt e.undoneGroups (ids e.revs)) := rfl

theorem fwdMask_snoc (B : List Nat) (post : List Revision) (r : Revision) :
    fwdMask B (post ++ [r]) = match r.edit with
      | .edit _ _ ins _ => unionMask ins.counts (fwdMask B post)
      | .undo _ _ => fwdMask B post := by
  induction post generalizing B with
  | nil => cases h : r.edit <;> simp only [List.nil_append, fwdMask, h]
  | cons x post ih =>
    simp only [List.cons_append, fwdMask]
    cases x.edit with
    | edit p g i d => simp only; exact ih _
    | undo t b => simp only; exact ih _

theorem Den.revMask_length (h : Den e l) {pre post : List Revision} {r : Revision}
    (hs : e.revs = pre ++ r :: post) : (revMask e l post).length = l.length := by
  obtain ⟨S, _, _, h3⟩ := h.cur_union hs
  exact h3

/-! ### Texts after an edit -/

theorem Den.edit_cnt (h : Den e l) {g : Nat} {J Dm : List Nat} {s : List α} (hm : EditMasks l J Dm s)
    {e' : Engine α} (h' : Den e' (addEdit ⟨e.nextRevId, g⟩ J Dm s l)) {r' : Revision}
    (hr : e'.revs = e.revs ++ [r']) (hid : r'.revId = e.nextRevId) (hg : r'.group? = some g) (G : List Nat) :
    (addEdit ⟨e.nextRevId, g⟩ J Dm s l).map (cnt G (ids e'.revs)) =
      if G.contains g then unionMask J (l.map (cnt G (ids e.revs)))
      else List.zipWith (fun x y => x + y) (expandMask J (l.map (cnt G (ids e.revs)))) (expandMask J Dm) := by
  have hf : (⟨e.nextRevId, g⟩ : Lab).id ∉ ids e.revs := h.fresh_id
  have hext := hm.ext (lab := ⟨e.nextRevId, g⟩) h.revsOk hf
  have hs : e'.revs = e.revs ++ r' :: [] := hr
  have hfwd := h'.revsOk.cntMask_fwd hs hg G
  have hid' : r'.revId = (⟨e.nextRevId, g⟩ : Lab).id := hid
  have hall : ids e.revs ++ [r'.revId] = ids e'.revs := by rw [hr]; simp
  rw [hext.cntMask hf, h.revsOk.cntMask_all, hall, h'.revsOk.cntMask_all, h'.revsOk.unionAt_all, hid',
    hm.insMask h.revsOk hf, hm.delMask h.revsOk hf] at hfwd
  exact hfwd

theorem Den.edit_text (h : Den e l) {g : Nat} {J Dm : List Nat} {s : List α} (hm : EditMasks l J Dm s)
    {e' : Engine α} (h' : Den e' (addEdit ⟨e.nextRevId, g⟩ J Dm s l)) {r' : Revision}
    (hr : e'.revs = e.revs ++ [r']) (hid : r'.revId = e.nextRevId) (hg : r'.group? = some g)
    (hu : e'.undoneGroups = e.undoneGroups) :
    e'.text = if e.undoneGroups.contains g then e.text else
      keep (expandMask J (List.zipWith (fun x y => x + y) (l.map (cnt e.undoneGroups (ids e.revs))) Dm))
        (weave J (l.map val) s) := by
  have hz : (l.map (cnt e.undoneGroups (ids e.revs))).length = zeros J := by rw [hm.zerosJ]; simp
  rw [h'.text, hu, h.edit_cnt hm h' hr hid hg, hm.vals]
  split
  · have hl := weave_length J (l.map val) s (by rw [hm.zerosJ]; simp) (by rw [hm.lenS, hm.zerosJ])
    rw [keep_unionMask J _ _ hz hl, keep_weave _ _ _ (by rw [hm.zerosJ]; simp) (by rw [hm.lenS, hm.zerosJ]), h.text]
  · rw [expandMask_add _ _ _ hz (by simp [hm.lenD])]

theorem filter_weave_old {β : Type} (p : β → Bool) : ∀ (J : List Nat) (xs ys : List β), xs.length = zeros J →
    ys.length = J.length - zeros J → (∀ y ∈ ys, p y = false) →
    (weave J xs ys).filter p = xs.filter p := by
  intro J
  induction J with
  | nil => intro xs ys h1 h2 _; simp at h1; subst h1; simp
  | cons i J ih =>
    intro xs ys h1 h2 h3
    have := zeros_le_length J
    by_cases hi : i = 0
    · subst hi
      cases xs with
      | nil => simp at h1
      | cons x xs =>
        simp at h1 h2
        simp [List.filter_cons, ih xs ys h1 (by omega) h3]
    · rw [zeros_cons_ne hi] at h1 h2
      cases ys with
      | nil => simp at h2; omega
      | cons y ys =>
        simp at h2
        rw [weave_left hi, List.filter_cons, h3 y (by simp)]
        simp [ih xs ys h1 (by omega) (fun y hy => h3 y (by simp [hy]))]

theorem filter_weave_new {β γ : Type} (p : β → Bool) (v : β → γ) (f : β → Nat) (J : List Nat) (xs ys : List β)
    (h1 : xs.length = zeros J) (h2 : ys.length = J.length - zeros J) (h3 : ∀ y ∈ ys, p y = true)
    (hf : ∀ x ∈ xs, p x = (f x == 0)) :
    ((weave J xs ys).filter p).map v = keep (expandMask J (xs.map f)) (weave J (xs.map v) (ys.map v)) := by
  induction J generalizing xs ys with
  | nil => simp at h1; subst h1; simp
  | cons i J ih =>
    have := zeros_le_length J
    by_cases hi : i = 0
    · subst hi
      cases xs with
      | nil => simp at h1
      | cons x xs =>
        simp at h1 h2
        have ih := ih xs ys h1 (by omega) h3 (fun x hx => hf x (by simp [hx]))
        have hx := hf x (by simp)
        by_cases h0 : f x = 0
        · rw [h0] at hx
          have hx : p x = true := by simpa using hx
          simp [List.filter_cons, hx, h0, ih]
        · have hx : p x = false := by rw [hx]; simpa using h0
          obtain ⟨k, hk⟩ := Nat.exists_eq_succ_of_ne_zero h0
          simp [List.filter_cons, hx, hk, ih]
    · rw [zeros_cons_ne hi] at h1 h2
      cases ys with
      | nil => simp at h2; omega
      | cons y ys =>
        simp at h2
        have ih := ih xs ys h1 (by omega) (fun y hy => h3 y (by simp [hy])) hf
        rw [weave_left hi, List.map_cons, weave_left hi, expandMask_left hi, List.filter_cons, h3 y (by simp)]
        simp [ih]

theorem expandMask_marks : ∀ (B del : List Nat) (b x : Nat), (b, x) ∈ B.zip (expandMask B del) → x ≠ 0 → b = 0 := by
  intro B
  induction B with
  | nil => simp
  | cons c B ih =>
    intro del b x h hx
    by_cases hc : c = 0
    · subst hc
      cases del with
      | nil =>
        simp only [expandMask_zero_nil, List.zip_cons_cons, List.mem_cons] at h
        rcases h with h | h
        · cases h; rfl
        · exact ih _ _ _ h hx
      | cons d del =>
        simp at h
        rcases h with ⟨rfl, rfl⟩ | h
        · rfl
        · exact ih _ _ _ h hx
    · rw [expandMask_left hc] at h
      simp at h
      rcases h with ⟨rfl, rfl⟩ | h
      · exact absurd rfl hx
      · exact ih _ _ _ h hx

/-- The combined view. -/
theorem combines_of_masks {U s : List α} {B D del I J : List Nat} (d : Delta α) (hB : B.length = U.length)
    (hD : D.length = U.length) (hJ : Carries I B J) (hI : zeros I = zeros B) (hdel : del.length = zeros B)
    (hs : s.length = J.length - zeros J)
    (hd : d.result (keep B U) = keep (expandMask I del) (weave I (keep B U) s)) :
    ∃ items, Combines d (keep B U) (keep D U)
        (keep (expandMask J (List.zipWith (fun x y => x + y) D (expandMask B del))) (weave J U s)) items ∧
      items.map (fun x => (x.val, x.isNew, x.deleted)) =
        weave J (List.zipWith (fun v n => (v, false, n != 0)) U (expandMask B del))
          (s.map (fun v => (v, true, false))) ∧
      (D = B → keep (expandMask J (List.zipWith (fun x y => x + y) D (expandMask B del))) (weave J U s) =
        d.result (keep B U)) := by
  let raw : List (α × Nat × Nat × Nat) := U.zip (D.zip (B.zip (expandMask B del)))
  let old : α × Nat × Nat × Nat → EditItem α := fun x => ⟨x.1, x.2.2.1 == 0, x.2.1 == 0, false, x.2.2.2 != 0⟩
  let new : α → EditItem α := fun v => ⟨v, false, false, true, false⟩
  have hzJ : zeros J = U.length := by rw [hJ.1, hB]
  have r1 : raw.map Prod.fst = U := List.map_fst_zip (by simp [hB, hD])
  have r2 : raw.map (fun x => x.2.1) = D := by
    have : raw.map Prod.snd = D.zip (B.zip (expandMask B del)) := List.map_snd_zip (by simp [hB, hD])
    have h2 : raw.map (fun x => x.2.1) = (raw.map Prod.snd).map Prod.fst := by rw [List.map_map]; rfl
    rw [h2, this]
    exact List.map_fst_zip (by simp [hB, hD])
  have r3' : (raw.map Prod.snd).map Prod.snd = B.zip (expandMask B del) := by
    have : raw.map Prod.snd = D.zip (B.zip (expandMask B del)) := List.map_snd_zip (by simp [hB, hD])
    rw [this]
    exact List.map_snd_zip (by simp [hB, hD])
  have r3 : raw.map (fun x => x.2.2.1) = B := by
    have h2 : raw.map (fun x => x.2.2.1) = ((raw.map Prod.snd).map Prod.snd).map Prod.fst := by
      simp only [List.map_map]; rfl
    rw [h2, r3']
    exact List.map_fst_zip (by simp)
  have r4 : raw.map (fun x => x.2.2.2) = expandMask B del := by
    have h2 : raw.map (fun x => x.2.2.2) = ((raw.map Prod.snd).map Prod.snd).map Prod.snd := by
      simp only [List.map_map]; rfl
    rw [h2, r3']
    exact List.map_snd_zip (by simp)
  have hrl : (raw.map old).length = zeros J := by rw [List.length_map, hzJ, ← r1]; simp
  have hsl : (s.map new).length = J.length - zeros J := by simp [hs]
  have hvo : (raw.map old).map EditItem.val = U := by rw [List.map_map, ← r1]; rfl
  have hvn : (s.map new).map EditItem.val = s := by rw [List.map_map]; simp [new, Function.comp_def]
  -- projections
  have projOld : ∀ (p : EditItem α → Bool) (f : α × Nat × Nat × Nat → Nat), (∀ v, p (new v) = false) →
      (∀ x, p (old x) = (f x == 0)) →
      project p (weave J (raw.map old) (s.map new)) = keep (raw.map f) U := by
    intro p f h1 h2
    rw [project, filter_weave_old p J _ _ hrl hsl (by
      intro y hy; obtain ⟨v, _, rfl⟩ := List.mem_map.1 hy; exact h1 v)]
    conv => rhs; rw [← r1]
    rw [keep_map, List.filter_map, List.map_map]
    congr 1
    apply List.filter_congr
    intro x _
    exact h2 x
  have projNew : ∀ (p : EditItem α → Bool) (f : α × Nat × Nat × Nat → Nat), (∀ v, p (new v) = true) →
      (∀ x, p (old x) = (f x == 0)) →
      project p (weave J (raw.map old) (s.map new)) = keep (expandMask J (raw.map f)) (weave J U s) := by
    intro p f h1 h2
    -- the mask of an old item
    let f' : EditItem α → Nat := fun y => if p y then 0 else 1
    have e1 := filter_weave_new p EditItem.val f' J (raw.map old) (s.map new) hrl hsl (by
      intro y hy; obtain ⟨v, _, rfl⟩ := List.mem_map.1 hy; exact h1 v) (by
      intro x _; simp only [f']; cases p x <;> rfl)
    rw [project, e1, hvo, hvn]
    -- the two masks have the same zeros
    have e2 : ∀ (J a b : List Nat) (xs : List α), a.map (fun c => c == 0) = b.map (fun c => c == 0) →
        keep (expandMask J a) xs = keep (expandMask J b) xs := by
      intro J
      induction J with
      | nil => simp
      | cons i J ih =>
        intro a b xs hab
        cases xs with
        | nil => simp
        | cons x xs =>
          by_cases hi : i = 0
          · subst hi
            cases a with
            | nil =>
              cases b with
              | nil => rfl
              | cons b0 b => simp at hab
            | cons a0 a =>
              cases b with
              | nil => simp at hab
              | cons b0 b =>
                simp only [List.map_cons, List.cons.injEq] at hab
                have ih := ih a b xs hab.2
                cases a0 with
                | zero =>
                  cases b0 with
                  | zero => simp [ih]
                  | succ b0 => simp at hab
                | succ a0 =>
                  cases b0 with
                  | zero => simp at hab
                  | succ b0 => simp [ih]
          · rw [expandMask_left hi, expandMask_left hi]
            simp [ih a b xs hab]
    apply e2
    rw [List.map_map, List.map_map, List.map_map]
    apply List.map_congr_left
    intro x _
    simp only [Function.comp, f']
    rw [h2 x]
    by_cases hz : f x = 0 <;> simp [hz]
  have hbase : keep (expandMask J (List.zipWith (fun x y => x + y) B (expandMask B del))) (weave J U s) =
      d.result (keep B U) := by
    rw [expandMask_add _ _ _ (by rw [hzJ, hB]) (by simp), keep_add _ _ (by
        rw [weave_length _ _ _ hzJ.symm hs]; simp) _ (by simp),
      hJ.dels hI hdel, hJ.text U s hB.symm hs, hd]
  refine ⟨weave J (raw.map old) (s.map new), ⟨?_, ?_, ?_, ?_, ?_⟩, ?_, fun hDB => by rw [hDB]; exact hbase⟩
  · intro x hx
    rcases mem_weave _ _ _ hx with hx | hx
    · obtain ⟨y, hy, rfl⟩ := List.mem_map.1 hx
      refine ⟨by simp [old], ?_⟩
      simp only [old]
      intro hdel
      obtain ⟨v, c, b, m⟩ := y
      have h1 := (List.of_mem_zip hy).2
      have h2 := (List.of_mem_zip h1).2
      have := expandMask_marks B del b m h2 (by simpa using hdel)
      simpa using this
    · obtain ⟨v, _, rfl⟩ := List.mem_map.1 hx
      simp [new, EditItem.Ok]
  · rw [projOld EditItem.inBase (fun x => x.2.2.1) (fun _ => rfl) (fun _ => rfl), r3]
  · rw [projOld EditItem.inHead (fun x => x.2.1) (fun _ => rfl) (fun _ => rfl), r2]
  · rw [projNew EditItem.afterBase (fun x => x.2.2.1 + x.2.2.2) (fun _ => rfl) (by
      intro x; simp only [EditItem.afterBase, old]
      generalize x.2.2.1 = a; generalize x.2.2.2 = b
      cases a <;> cases b <;> rfl)]
    have : raw.map (fun x => x.2.2.1 + x.2.2.2) = List.zipWith (fun x y => x + y) B (expandMask B del) := by
      rw [← zipWith_map_map (fun x y => x + y) raw, r3, r4]
    rw [this, hbase]
  · rw [projNew EditItem.afterHead (fun x => x.2.1 + x.2.2.2) (fun _ => rfl) (by
      intro x; simp only [EditItem.afterHead, old]
      generalize x.2.1 = a; generalize x.2.2.2 = b
      cases a <;> cases b <;> rfl)]
    have : raw.map (fun x => x.2.1 + x.2.2.2) = List.zipWith (fun x y => x + y) D (expandMask B del) := by
      rw [← zipWith_map_map (fun x y => x + y) raw, r2, r4]
    rw [this]
  · rw [map_weave, List.map_map, List.map_map]
    congr 1
    conv => rhs; rw [← r1, ← r4]
    simp only [List.zipWith_map, List.zipWith_self]
    rfl

/-! ### Committing an edit -/

theorem findLastIdx_snoc_false {β : Type} {p : β → Bool} (l : List β) (x : β) (h : p x = false) :
    findLastIdx p (l ++ [x]) = findLastIdx p l := by
  induction l with
  | nil => simp [findLastIdx, h]
  | cons y l ih => rw [List.cons_append, findLastIdx, findLastIdx, ih]

theorem Delta.factor_baseLen {d : Delta α} {ins : InsertDelta α} {del : Subset} (h : d.factor = some (ins, del)) :
    ins.d.baseLen = d.baseLen := by
  simp only [Delta.factor, Option.bind_eq_bind, Option.bind_eq_some_iff] at h
  obtain ⟨st, _, sb, _, sb', _, h⟩ := h
  cases h
  rfl

theorem Engine.edit_missing {tok : RevId → Nat} {t : Nat} (ht : e.findRevToken tok t = none) (p g : Nat)
    (d : Delta α) : e.tryEditRev tok p g t d = some (.error (.missingRevision t)) := by
  simp [Engine.tryEditRev, Engine.mkNewRev, ht]

/-- The recorded length of a revision is the length of its text. -/
theorem Den.rev_len (h : Den e l) {pre post : List Revision} {r : Revision} (hs : e.revs = pre ++ r :: post) :
    ∃ S, e.deletesFromUnionForIndex pre.length = some S ∧ S.lenAfterDelete = zeros (revMask e l post) := by
  obtain ⟨S, a1, a2, a3⟩ := h.for_index (pre := pre ++ [r]) (post := post) (by simp [hs])
  generalize hB0 : (backTo true (l.map (cnt e.undoneGroups (ids e.revs)), e.undoneGroups) post).1 = B0 at a2 a3
  have hrm : revMask e l post = fwdMask B0 post := by rw [revMask, hB0]
  have hz0 : zeros (fwdMask B0 post) = zeros B0 :=
    zeros_fwdMask h.revsOk post (pre ++ [r]) (by simp [hs]) B0 a3
  refine ⟨S, ?_, by rw [hrm, hz0, a2.lenAfterDelete]⟩
  rw [Engine.deletesFromUnionForIndex]
  simp only [List.length_append, List.length_cons, List.length_nil] at a1
  exact a1

theorem Den.edit_malformed [Nonempty α] {tok : RevId → Nat} (h : Den e l) {pre post : List Revision} {r : Revision}
    (hs : e.revs = pre ++ r :: post) {t : Nat} (ht : e.findRevToken tok t = some pre.length)
    (p g : Nat) {d : Delta α} (hd : d.WF) (hl : d.baseLen ≠ zeros (revMask e l post)) :
    e.tryEditRev tok p g t d =
      some (.error (.malformedDelta (zeros (revMask e l post)) d.baseLen)) := by
  obtain ⟨S, h1, h2⟩ := h.rev_len hs
  obtain ⟨x⟩ := ‹Nonempty α›
  obtain ⟨ins, del, I, s, f1, f2, _⟩ := Delta.factor_spec d (List.replicate d.baseLen x) hd (by simp)
  have hb := Delta.factor_baseLen f1
  rw [← h2] at hl ⊢
  simp only [Engine.tryEditRev, Engine.mkNewRev, ht, f1, h1, hb, Option.bind_eq_bind, Option.bind_some, ne_eq, hl,
    not_false_eq_true, if_true, Option.pure_def]

theorem Den.edit_inv {tok : RevId → Nat} (h : Den e l) {p g t : Nat} {d : Delta α} {e' : Engine α}
    (hok : e.tryEditRev tok p g t d = some (.ok e')) :
    ∃ pre r post, e.revs = pre ++ r :: post ∧ e.findRevToken tok t = some pre.length ∧
      d.baseLen = zeros (revMask e l post) := by
  cases ht : e.findRevToken tok t with
  | none => rw [Engine.edit_missing ht] at hok; cases hok
  | some ix =>
    obtain ⟨pre, r, post, h1, h2, _⟩ := Engine.findRevToken_some ht
    subst h2
    refine ⟨pre, r, post, h1, rfl, ?_⟩
    obtain ⟨S, a1, a2⟩ := h.rev_len h1
    rw [← a2]
    simp only [Engine.tryEditRev, Engine.mkNewRev, ht, Option.bind_eq_bind, Option.bind_eq_some_iff] at hok
    obtain ⟨x, ⟨⟨ins, del⟩, f1, S', hS', hx⟩, hok⟩ := hok
    rw [a1] at hS'; cases hS'
    rw [← Delta.factor_baseLen f1]
    by_cases hl : ins.d.baseLen = S.lenAfterDelete
    · exact hl
    · exfalso
      simp only [ne_eq, hl, not_false_eq_true, if_true] at hx
      cases hx
      cases hok

theorem Engine.Reach.den {tok : RevId → Nat} (h : Engine.Reach tok e) : ∃ l, Den e l := by
  induction h with
  | empty he =>
    obtain ⟨D, h1, h2⟩ := Engine.empty_eq (α := α)
    rw [h2] at he; cases he
    exact ⟨[], den_empty D h1 _⟩
  | session s he hs =>
    obtain ⟨D, h1, h2⟩ := Engine.empty_eq (α := α)
    rw [h2] at he; cases he
    simp [Engine.setSessionId] at hs
    rw [← hs]
    exact ⟨[], den_empty D h1 _⟩
  | edit p g t d _ hd hok ih =>
    obtain ⟨l, hl⟩ := ih
    obtain ⟨pre, r, post, a1, a2, a3⟩ := hl.edit_inv hok
    obtain ⟨I, del, s, J, e', r', _, _, _, _, _, _, b1, b2, _⟩ := hl.edit tok a1 t a2 p g d hd a3
    rw [hok] at b1; cases b1
    exact ⟨_, b2⟩
  | undo groups _ hok ih =>
    obtain ⟨l, hl⟩ := ih
    obtain ⟨e', r, b1, b2, _⟩ := hl.undo groups
    rw [hok] at b1; cases b1
    exact ⟨_, b2⟩
  | gc groups _ hg hok ih =>
    obtain ⟨l, hl⟩ := ih
    obtain ⟨e', ret, b1, b2, _⟩ := hl.gc groups hg
    rw [hok] at b1; cases b1
    exact ⟨_, b2⟩

theorem zipWith_markDel_marks {lab : Lab} : ∀ (l : List (Chr α)) (Dm : List Nat),
    (∀ c ∈ l, c.insertedBy lab.id = false ∧ c.deletedBy lab.id = false) →
    (List.zipWith (Chr.markDel lab) l Dm).map
        (fun c => (c.val, c.insertedBy lab.id, c.deletedBy lab.id)) =
      List.zipWith (fun v n => (v, false, n != 0)) (l.map val) Dm := by
  intro l
  induction l with
  | nil => simp
  | cons c l ih =>
    intro Dm h
    cases Dm with
    | nil => simp
    | cons n Dm =>
      have hc := h c (by simp)
      simp only [List.zipWith_cons_cons, List.map_cons, ih Dm (fun c hc => h c (by simp [hc]))]
      congr 1
      by_cases hn : n = 0
      · subst hn; simp [Chr.markDel, hc.1, hc.2]
      · have hn' : (n != 0) = true := by simpa using hn
        have h1 : (c.markDel lab n).insertedBy lab.id = false := by
          rw [← hc.1]; simp [Chr.markDel, hn, Chr.insertedBy]
        have h2 : (c.markDel lab n).deletedBy lab.id = true := by simp [Chr.markDel, hn, Chr.deletedBy]
        rw [h1, h2, hn', Xi.val_markDel]

theorem RevsOk.no_mark {revs : List Revision} (h : RevsOk l revs) {id : RevId} (hf : id ∉ ids revs) :
    ∀ c ∈ l, c.insertedBy id = false ∧ c.deletedBy id = false := by
  intro c hc
  have hk := h.chr c hc
  constructor
  · unfold Chr.insertedBy
    cases hi : c.insBy with
    | none => rfl
    | some a =>
      obtain ⟨r, h1, h2, _⟩ := hk.insLab a hi
      simp only [Option.any_some, beq_eq_false_iff_ne, ne_eq]
      intro h3
      exact hf (mem_ids.2 ⟨r, h1, by rw [h2, h3]⟩)
  · unfold Chr.deletedBy
    rw [List.any_eq_false]
    intro d hd
    obtain ⟨r, h1, h2, _⟩ := hk.delLab d hd
    simp only [beq_iff_eq]
    intro h3
    exact hf (mem_ids.2 ⟨r, h1, by rw [h2, h3]⟩)

/-- A committed edit: what becomes of the text and of the labelled characters. -/
theorem Den.edit_full_carry {tok : RevId → Nat} (h : Den e l) {pre post : List Revision} {r : Revision}
    (hs : e.revs = pre ++ r :: post) {t : Nat} (ht : e.findRevToken tok t = some pre.length)
    (p g : Nat) {d : Delta α} (hd : d.WF) (hl : d.baseLen = zeros (revMask e l post)) :
    ∃ e' l' items head', e.tryEditRev tok p g t d = some (.ok e') ∧ Den e' l' ∧
      Combines d (keep (revMask e l post) (l.map val)) e.text head' items ∧
      e'.text = (if e.undoneGroups.contains g then e.text else head') ∧
      (post = [] → head' = d.result e.text) ∧
      items.map (fun x => (x.val, x.isNew, x.deleted)) =
        l'.map (fun c => (c.val, c.insertedBy e.nextRevId, c.deletedBy e.nextRevId)) ∧
      Ext ⟨e.nextRevId, g⟩ l l' ∧
      e'.undoneGroups = e.undoneGroups ∧ e'.session = e.session ∧
      (∃ r', e'.revs = e.revs ++ [r'] ∧ r'.revId = e.nextRevId ∧ r'.group? = some g) ∧
      (∀ pre1 r1 post1, e.revs = pre1 ++ r1 :: post1 → ∃ post2, e'.revs = pre1 ++ r1 :: post2 ∧
        keep (revMask e' l' post2) (l'.map val) = keep (revMask e l post1) (l.map val)) ∧
      ∃ J0, zeros J0 = (unionAt l (ids (pre ++ [r]))).length ∧ l'.map (insMark e.nextRevId) = carryMask ⟨p, e.session⟩ J0 post := by
  obtain ⟨I, del, s, J, e', r', b1, b2, b3, b4, b5, b6, b7, b8, b9, b10, b11, b12, b13, ⟨i, x, m, b14, b15, b16⟩, b17, J0, b18, b19⟩ :=
    h.edit_carry tok hs t ht p g d hd hl
  have hlen := h.revMask_length hs
  obtain ⟨items, c1, c2, c3⟩ := combines_of_masks (U := l.map val) (D := l.map (cnt e.undoneGroups (ids e.revs))) (s := s) d
    (by simp [hlen]) (by simp) b5 (by rw [b2, hl]) (by rw [b4, hl]) (by rw [b6.lenS, b6.zerosJ]) b1
  rw [← h.text] at c1
  refine ⟨e', _, items, _, b7, b8, c1, ?_, ?_, ?_, b6.ext (lab := ⟨e.nextRevId, g⟩) h.revsOk h.fresh_id, b9, b10,
    ⟨r', b11, b12, b13⟩, ?_,
    J0, b18, by rw [b6.insMask (lab := ⟨e.nextRevId, g⟩) h.revsOk h.fresh_id, b19]⟩
  · exact h.edit_text b6 b8 b11 b12 b13 b9
  · intro hp; subst hp
    rw [c3 h.revMask_nil.symm, h.revMask_nil, ← h.text]
  · rw [c2, addEdit, map_weave, zipWith_markDel_marks (lab := ⟨e.nextRevId, g⟩) _ _ (h.revsOk.no_mark h.fresh_id), List.map_map]
    congr 1
    simp [Function.comp_def, Chr.insertedBy, Chr.deletedBy]
  · intro pre1 r1 post1 hs1
    refine ⟨post1 ++ [r'], by rw [b11, hs1]; simp, ?_⟩
    have h1 := h.revMask_length hs1
    have hz : (revMask e l post1).length = zeros J := by rw [h1, b6.zerosJ]
    have hw := weave_length J (l.map val) s (by rw [b6.zerosJ]; simp) (by rw [b6.lenS, b6.zerosJ])
    have : revMask e' (addEdit ⟨e.nextRevId, g⟩ J (expandMask (revMask e l post) del) s l) (post1 ++ [r']) =
        unionMask J (revMask e l post1) := by
      rw [revMask, backTo_snoc, b9, b17, fwdMask_snoc, b14]
      simp only [b15.2]
      rfl
    rw [this, b6.vals, keep_unionMask J _ _ hz hw,
      keep_weave _ _ _ (by rw [b6.zerosJ]; simp) (by rw [b6.lenS, b6.zerosJ])]

theorem Den.edit_full {tok : RevId → Nat} (h : Den e l) {pre post : List Revision} {r : Revision}
    (hs : e.revs = pre ++ r :: post) {t : Nat} (ht : e.findRevToken tok t = some pre.length)
    (p g : Nat) {d : Delta α} (hd : d.WF) (hl : d.baseLen = zeros (revMask e l post)) :
    ∃ e' l' items head', e.tryEditRev tok p g t d = some (.ok e') ∧ Den e' l' ∧
      Combines d (keep (revMask e l post) (l.map val)) e.text head' items ∧
      e'.text = (if e.undoneGroups.contains g then e.text else head') ∧
      (post = [] → head' = d.result e.text) ∧
      items.map (fun x => (x.val, x.isNew, x.deleted)) =
        l'.map (fun c => (c.val, c.insertedBy e.nextRevId, c.deletedBy e.nextRevId)) ∧
      Ext ⟨e.nextRevId, g⟩ l l' ∧
      e'.undoneGroups = e.undoneGroups ∧ e'.session = e.session ∧
      (∃ r', e'.revs = e.revs ++ [r'] ∧ r'.revId = e.nextRevId ∧ r'.group? = some g) ∧
      ∀ pre1 r1 post1, e.revs = pre1 ++ r1 :: post1 → ∃ post2, e'.revs = pre1 ++ r1 :: post2 ∧
        keep (revMask e' l' post2) (l'.map val) = keep (revMask e l post1) (l.map val) := by
  obtain ⟨e', l', items, head', h1, h2, h3, h4, h5, h6, h7, h8, h9, h10, h11, _⟩ := h.edit_full_carry hs ht p g hd hl
  exact ⟨e', l', items, head', h1, h2, h3, h4, h5, h6, h7, h8, h9, h10, h11⟩

/-- An undo, and what it leaves unchanged. -/
theorem Den.undo_full (h : Den e l) (groups : List Nat) :
    ∃ e', e.undo groups = some e' ∧ Den e' l ∧ e'.undoneGroups = groups ∧ e'.session = e.session ∧
      e'.text = visibleText groups l ∧
      (∃ r', e'.revs = e.revs ++ [r'] ∧ r'.revId = e.nextRevId ∧ r'.group? = none) ∧
      ∀ pre1 r1 post1, e.revs = pre1 ++ r1 :: post1 → ∃ post2, e'.revs = pre1 ++ r1 :: post2 ∧
        revMask e' l post2 = revMask e l post1 := by
  obtain ⟨e', r', a1, a2, a3, a4, a5, a6, a7, a8⟩ := h.undo groups
  refine ⟨e', a1, a2, a3, a4, by rw [a2.text_visible, a3], ⟨r', a5, a6, a7⟩, ?_⟩
  intro pre1 r1 post1 hs1
  refine ⟨post1 ++ [r'], by rw [a5, hs1]; simp, ?_⟩
  rw [revMask, backTo_snoc, a3, a8, fwdMask_snoc]
  have hb := (backTo_congr (symDiff_symDiff e.undoneGroups groups) true
    (l.map (cnt e.undoneGroups (ids e.revs))) post1).1
  rw [hb]
  unfold Revision.group? at a7
  split at a7
  · cases a7
  · rename_i he
    rw [he]; rfl

theorem Engine.Reach.steps {tok : RevId → Nat} {e e' : Engine α} (h : Engine.Reach tok e)
    (hs : Engine.Steps tok e e') : Engine.Reach tok e' := by
  induction hs with
  | refl => exact h
  | edit p g t d _ hd hok ih => exact ih.edit p g t d hd hok
  | undo groups _ hok ih => exact ih.undo groups hok

theorem Den.head_find (h : Den e l) (tok : RevId → Nat) {id : RevId} (hid : e.getHeadRevId = some id) :
    ∃ pre r, e.revs = pre ++ [r] ∧ r.revId = id ∧ e.findRevToken tok (tok id) = some pre.length := by
  obtain ⟨pre, r, h1, h2⟩ := h.last
  rw [Engine.getHeadRevId, h2] at hid
  simp at hid
  refine ⟨pre, r, h1, hid, ?_⟩
  rw [Engine.findRevToken, h1]
  exact findLastIdx_last _ _ (by simp [hid])

theorem Den.head_read (h : Den e l) (tok : RevId → Nat) {id : RevId} (hid : e.getHeadRevId = some id) :
    e.getRev tok (tok id) = some (some e.text) := by
  obtain ⟨pre, r, h1, _, hf⟩ := h.head_find tok hid
  rw [h.getRev h1 hf, h.text]
  rfl

theorem Den.getRev_inv (h : Den e l) {tok : RevId → Nat} {t : Nat} {x : List α}
    (hx : e.getRev tok t = some (some x)) :
    ∃ pre r post, e.revs = pre ++ r :: post ∧ e.findRevToken tok t = some pre.length ∧
      tok r.revId = t ∧ x = keep (revMask e l post) (l.map val) := by
  cases ht : e.findRevToken tok t with
  | none => rw [Engine.getRev, ht] at hx; cases hx
  | some ix =>
    obtain ⟨pre, r, post, h1, h2, h3, _⟩ := Engine.findRevToken_some ht
    subst h2
    rw [h.getRev h1 ht] at hx
    cases hx
    exact ⟨pre, r, post, h1, rfl, h3, rfl⟩

theorem Den.getRev_new {e' : Engine α} {l' : List (Chr α)} (h : Den e l) (h' : Den e' l') {tok : RevId → Nat} {t : Nat}
    {x : List α} (hx : e.getRev tok t = some (some x)) {r' : Revision} (hr : e'.revs = e.revs ++ [r'])
    (hn : tok r'.revId ≠ t)
    (hk : ∀ pre1 r1 post1, e.revs = pre1 ++ r1 :: post1 → ∃ post2, e'.revs = pre1 ++ r1 :: post2 ∧
        keep (revMask e' l' post2) (l'.map val) = keep (revMask e l post1) (l.map val)) :
    e'.getRev tok t = some (some x) := by
  obtain ⟨pre, r, post, h1, h2, h3, h4⟩ := h.getRev_inv hx
  obtain ⟨post2, k1, k2⟩ := hk pre r post h1
  have hf : e'.findRevToken tok t = some pre.length := by
    rw [Engine.findRevToken, hr, findLastIdx_snoc_false _ _ (by simpa using hn)]
    exact h2
  rw [h'.getRev k1 hf, k2, h4]

/-- Reading an earlier revision is not affected by edits and undos. -/
theorem Engine.Reach.steps_read {tok : RevId → Nat} {e' : Engine α} (hst : Engine.Steps tok e e')
    (h : Engine.Reach tok e) {t : Nat} {x : List α} (hx : e.getRev tok t = some (some x)) :
    e.revs.length ≤ e'.revs.length ∧ ((∀ r ∈ e'.revs.drop e.revs.length, tok r.revId ≠ t) →
      e'.getRev tok t = some (some x)) := by
  have key : ∀ (e1 e2 : Engine α) (r' : Revision), e.revs.length ≤ e1.revs.length → e2.revs = e1.revs ++ [r'] →
      (∀ r ∈ e2.revs.drop e.revs.length, tok r.revId ≠ t) →
      (∀ r ∈ e1.revs.drop e.revs.length, tok r.revId ≠ t) ∧ tok r'.revId ≠ t := by
    intro e1 e2 r' hle hr hn
    rw [hr, List.drop_append] at hn
    refine ⟨fun r hr => hn r (by simp [hr]), hn r' ?_⟩
    have : e.revs.length - e1.revs.length = 0 := by omega
    simp [this]
  induction hst with
  | refl => exact ⟨Nat.le_refl _, fun _ => hx⟩
  | edit p g t' d hst1 hd hok ih =>
    obtain ⟨ih1, ih2⟩ := ih
    obtain ⟨l1, h1⟩ := (h.steps hst1).den
    obtain ⟨pre, r, post, a1, a2, a3⟩ := h1.edit_inv hok
    obtain ⟨e2, l2, items, head', b1, b2, _, _, _, _, _, _, _, ⟨r', b3, _⟩, b4⟩ := h1.edit_full a1 a2 p g hd a3
    rw [hok] at b1; cases b1
    refine ⟨by rw [b3]; simp; omega, fun hnew => ?_⟩
    obtain ⟨k1, k2⟩ := key _ _ r' ih1 b3 hnew
    exact h1.getRev_new b2 (ih2 k1) b3 k2 b4
  | undo groups hst1 hok ih =>
    obtain ⟨ih1, ih2⟩ := ih
    obtain ⟨l1, h1⟩ := (h.steps hst1).den
    obtain ⟨e2, b1, b2, _, _, _, ⟨r', b3, _⟩, b4⟩ := h1.undo_full groups
    rw [hok] at b1; cases b1
    refine ⟨by rw [b3]; simp; omega, fun hnew => ?_⟩
    obtain ⟨k1, k2⟩ := key _ _ r' ih1 b3 hnew
    exact h1.getRev_new b2 (ih2 k1) b3 k2 (fun pre1 r1 post1 hs => by
      obtain ⟨post2, k1, k2⟩ := b4 pre1 r1 post1 hs
      exact ⟨post2, k1, by rw [k2]⟩)

/-- The edit from a revision to the head. -/
theorem Den.deltaRevHead (h : Den e l) {tok : RevId → Nat} {t : Nat} {x : List α}
    (hx : e.getRev tok t = some (some x)) :
    ∃ d, e.tryDeltaRevHead tok t = some (.ok d) ∧ d.WF ∧ d.baseLen = x.length ∧ d.result x = e.text := by
  obtain ⟨pre, r, post, h1, h2, h3, h4⟩ := h.getRev_inv hx
  obtain ⟨S, a1, a2, a3⟩ := h.cur_union h1
  have hsh := shuffleTombstones_spec h.dels a2 (l.map val) (by simp) (by simp [a3])
  rw [← h.text, ← h.tombs] at hsh
  obtain ⟨d, d1, d2, d3, d4⟩ := Delta.synthesize_spec S e.deletesFromUnion (l.map val)
    (by rw [a2.2, a3]; simp) (by rw [h.length_dels]; simp)
  rw [a2.2] at d1 d3 d4
  rw [h.dels.2, ← h.text] at d4
  refine ⟨d, ?_, d2, by rw [h4, d3], by rw [h4, d4]⟩
  simp only [Engine.tryDeltaRevHead, h2, a1, hsh, d1, Option.bind_eq_bind, Option.bind_some, Option.pure_def]

/-! ### Undo groups -/

theorem visibleText_congr {G G' : List Nat} (h : GEq G G') (l : List (Chr α)) : visibleText G l = visibleText G' l := by
  unfold visibleText
  congr 1
  apply List.filter_congr
  intro c _
  unfold Chr.visible
  rw [show c.delBy.all (fun d => G.contains d.group) = c.delBy.all (fun d => G'.contains d.group) by
    congr 1; funext d; exact h _]
  cases c.insBy with
  | none => rfl
  | some a => simp only [h a.group]

/-- Only the groups that occur in the history matter. -/
theorem visibleText_congr_on {revs : List Revision} (hk : RevsOk l revs) {G G' : List Nat}
    (h : ∀ r ∈ revs, ∀ g, r.group? = some g → G.contains g = G'.contains g) :
    visibleText G l = visibleText G' l := by
  unfold visibleText
  congr 1
  apply List.filter_congr
  intro c hc
  have hc := hk.chr c hc
  unfold Chr.visible
  congr 1
  · cases hi : c.insBy with
    | none => rfl
    | some a =>
      obtain ⟨r, h1, _, h2⟩ := hc.insLab a hi
      simp only [h r h1 _ h2]
  · rw [Bool.eq_iff_iff, List.all_eq_true, List.all_eq_true]
    constructor
    · intro ha d hd
      obtain ⟨r, h1, _, h2⟩ := hc.delLab d hd
      rw [← h r h1 _ h2]; exact ha d hd
    · intro ha d hd
      obtain ⟨r, h1, _, h2⟩ := hc.delLab d hd
      rw [h r h1 _ h2]; exact ha d hd

/-- An undone edit changes nothing that is visible. -/
theorem Ext.visibleText {lab : Lab} {l' : List (Chr α)} (h : Ext lab l l') {G : List Nat}
    (hg : G.contains lab.group = true) : visibleText G l' = visibleText G l := by
  rw [← h.old, Xi.visibleText, Xi.visibleText, List.filter_map, List.map_map, List.filter_filter]
  have : l'.filter (Chr.visible G) = l'.filter (fun c => (Chr.visible G ∘ undelete lab.id) c && (c.insMark lab.id == 0)) := by
    apply List.filter_congr
    intro c hc
    have hdel : ∀ d ∈ c.delBy, d.id = lab.id → G.contains d.group = true := by
      intro d hd h1; rw [h.del c hc d hd h1]; exact hg
    have hall : (c.delBy.filter (fun d => d.id != lab.id)).all (fun d => G.contains d.group) =
        c.delBy.all (fun d => G.contains d.group) := by
      rw [Bool.eq_iff_iff, List.all_eq_true, List.all_eq_true]
      constructor
      · intro h1 d hd
        by_cases h2 : d.id = lab.id
        · exact hdel d hd h2
        · exact h1 d (List.mem_filter.2 ⟨hd, by simpa using h2⟩)
      · intro h1 d hd
        exact h1 d (List.mem_filter.1 hd).1
    by_cases hi : c.insMark lab.id = 0
    · simp only [hi, beq_self_eq_true, Bool.and_true, Function.comp]
      unfold Chr.visible
      rw [show (undelete lab.id c).insBy = c.insBy from rfl,
        show (undelete lab.id c).delBy = c.delBy.filter (fun d => d.id != lab.id) from rfl, hall]
    · have := (h.new c hc hi).1
      have hz : (c.insMark lab.id == 0) = false := by simpa using hi
      rw [hz, Bool.and_false]
      unfold Chr.visible
      rw [this]
      simp only [hg, Bool.not_true, Bool.false_and]
  rw [this]
  rfl

theorem Chr.visible_congr {c : Chr α} {G G' : List Nat}
    (h1 : ∀ a, c.insBy = some a → G.contains a.group = G'.contains a.group)
    (h2 : ∀ d ∈ c.delBy, G.contains d.group = G'.contains d.group) : c.visible G = c.visible G' := by
  unfold Chr.visible
  congr 1
  · cases hi : c.insBy with
    | none => rfl
    | some a => simp only [h1 a hi]
  · rw [Bool.eq_iff_iff, List.all_eq_true, List.all_eq_true]
    exact ⟨fun ha d hd => by rw [← h2 d hd]; exact ha d hd, fun ha d hd => by rw [h2 d hd]; exact ha d hd⟩

theorem Chr.visible_split (q : Lab → Bool) (G : List Nat) (c : Chr α) :
    c.visible G = ((c.restrict q).visible G && (c.restrict (fun a => !q a)).visible G) := by
  have : ∀ (ds : List Lab) (f : Lab → Bool),
      ds.all f = ((ds.filter q).all f && (ds.filter (fun a => !q a)).all f) := by
    intro ds f
    induction ds with
    | nil => simp
    | cons d ds ih =>
      by_cases hq : q d <;> simp [hq, ih, Bool.and_assoc]
      exact Bool.and_left_comm _ _ _
  unfold visible restrict
  rw [this c.delBy]
  cases c.insBy with
  | none => simp
  | some a =>
    by_cases hq : q a
    · simp [hq, Option.filter, Bool.and_assoc]
    · simp [hq, Option.filter]
      exact Bool.and_left_comm _ _ _

theorem Chr.gm_eq_zero_iff {revs : List Revision} (h : RevsOk l revs) {c : Chr α}
    (hc : c ∈ l) (q : Lab → Bool) (G : List Nat) :
    c.gm q G (ids revs) = 0 ↔ (c.restrict q).visible G = true := by
  unfold gm cnt visible
  rw [Nat.add_eq_zero_iff, Bool.and_eq_true, List.countP_eq_zero, List.all_eq_true]
  have h1 : (∀ d ∈ (c.restrict q).delBy, ¬(((ids revs).contains d.id && !G.contains d.group) = true)) ↔
      ∀ d ∈ (c.restrict q).delBy, G.contains d.group = true := by
    constructor
    · intro h2 d hd
      have := h2 d hd
      obtain ⟨r, h3, h4, _⟩ := (h.chr c hc).delLab d (List.mem_filter.1 hd).1
      have h5 : (ids revs).contains d.id = true := by
        rw [List.contains_iff_mem, mem_ids]; exact ⟨r, h3, h4⟩
      rw [h5] at this
      simpa using this
    · intro h2 d hd
      rw [h2 d hd]; simp
  rw [h1]
  cases (c.restrict q).insBy with
  | none => simp
  | some a => by_cases hg : a.group ∈ G <;> simp [hg]

theorem gcList_eq_collect {revs : List Revision} (hk : RevsOk l revs) (retain : List RevId) (gcs G : List Nat) :
    gcList retain gcs G revs l = collect (goneLab retain gcs) G l := by
  unfold gcList collect
  have : l.filter (fun c => c.gm (goneLab retain gcs) G (ids revs) == 0) =
      l.filter (fun c => (c.keepLabs (goneLab retain gcs)).visible G) := by
    apply List.filter_congr
    intro c hc
    rw [Bool.eq_iff_iff, beq_iff_eq]; exact Chr.gm_eq_zero_iff hk hc _ _
  rw [this]; rfl

/-- `gc` does not change what is visible, as long as the collected groups stay
as they are. -/
theorem gcList_visibleText {revs : List Revision} (hk : RevsOk l revs) (retain : List RevId) (gcs G : List Nat)
    {S S' : List Nat} (h1 : ∀ r ∈ revs, ∀ g, r.group? = some g → goneLab retain gcs ⟨r.revId, g⟩ = true →
      S'.contains g = G.contains g)
    (h2 : ∀ r ∈ revs, ∀ g, r.group? = some g → goneLab retain gcs ⟨r.revId, g⟩ = false →
      S'.contains g = S.contains g) :
    visibleText S (gcList retain gcs G revs l) = visibleText S' l := by
  rw [visibleText, visibleText, gcList, List.filter_map, List.map_map, List.filter_filter]
  have : ∀ c ∈ l, ((Chr.visible S ∘ Chr.restrict (fun a => !goneLab retain gcs a)) c &&
      (c.gm (goneLab retain gcs) G (ids revs) == 0)) = c.visible S' := by
    intro c hc
    have hc' := hk.chr c hc
    have hg : (c.gm (goneLab retain gcs) G (ids revs) == 0) =
        (c.restrict (goneLab retain gcs)).visible G := by
      rw [Bool.eq_iff_iff, beq_iff_eq]; exact Chr.gm_eq_zero_iff hk hc _ _
    rw [hg, Chr.visible_split (goneLab retain gcs) S', Bool.and_comm]
    congr 1
    · apply Chr.visible_congr
      · intro a ha
        obtain ⟨b1, b2⟩ := Chr.restrict_insBy_some ha
        obtain ⟨r, c1, c2, c3⟩ := hc'.insLab a b1
        exact (h1 r c1 _ c3 (by rw [c2]; exact b2)).symm
      · intro d hd
        obtain ⟨b1, b2⟩ := List.mem_filter.1 hd
        obtain ⟨r, c1, c2, c3⟩ := hc'.delLab d b1
        exact (h1 r c1 _ c3 (by rw [c2]; exact b2)).symm
    · apply Chr.visible_congr
      · intro a ha
        obtain ⟨b1, b2⟩ := Chr.restrict_insBy_some ha
        obtain ⟨r, c1, c2, c3⟩ := hc'.insLab a b1
        exact (h2 r c1 _ c3 (by rw [c2]; simpa using b2)).symm
      · intro d hd
        obtain ⟨b1, b2⟩ := List.mem_filter.1 hd
        obtain ⟨r, c1, c2, c3⟩ := hc'.delLab d b1
        exact (h2 r c1 _ c3 (by rw [c2]; simpa using b2)).symm
  rw [List.filter_congr this]
  rfl

end Xi
