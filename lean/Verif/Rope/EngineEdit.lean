import Verif.Rope.EngineStep

/-!
# Edits preserve the engine invariant
-/

namespace Xi

variable {α : Type}

open Chr

/-! ### More mask lemmas -/

theorem keep_flip_expand_weave : ∀ (J D : List Nat) (U s : List α), D.length = zeros J → U.length = D.length →
    s.length = J.length - zeros J →
    keep (flipMask (expandMask J D)) (weave J U s) = keep (flipMask D) U := by
  intro J
  induction J with
  | nil => intro D U s h1 h2 _; simp at h1; subst h1; simp
  | cons i J ih =>
    intro D U s h1 h2 h3
    have := zeros_le_length J
    by_cases hi : i = 0
    · subst hi
      cases D with
      | nil => simp at h1
      | cons d D => cases U with
        | nil => simp at h2
        | cons u U =>
          simp at h1 h2 h3
          have := ih D U s h1 h2 (by omega)
          cases d <;> simp [this]
    · rw [zeros_cons_ne hi] at h1 h3
      cases s with
      | nil => simp at h3; omega
      | cons y s =>
        simp at h3
        rw [expandMask_left hi, weave_left hi]
        simp only [flipMask_zero, keep_succ]
        exact ih D U s h1 h2 (by omega)

theorem weave_self01 : ∀ (J : List Nat), (∀ c ∈ J, c = 0 ∨ c = 1) → ∀ a b, a = zeros J → b = J.length - zeros J →
    weave J (List.replicate a 0) (List.replicate b 1) = J := by
  intro J
  induction J with
  | nil => simp
  | cons i J ih =>
    intro h a b ha hb
    have hle := zeros_le_length J
    have ih := ih (fun c hc => h c (by simp [hc]))
    rcases h i (by simp) with rfl | rfl
    · simp at ha hb
      subst ha
      simp [List.replicate_succ, ih _ b rfl (by omega)]
    · simp at ha hb
      obtain ⟨b', rfl⟩ : ∃ b', b = b' + 1 := ⟨b - 1, by omega⟩
      simp [List.replicate_succ, ih a b' ha (by omega)]

theorem rebaseMask_of_zeros (after : Bool) (J : List Nat) (n : Nat) (h : zeros J = n) :
    rebaseMask after J (List.replicate n 0) = J := by
  induction J generalizing n with
  | nil => simp at h; subst h; simp [rebaseMask_nil]
  | cons i J ih =>
    by_cases hi : i = 0
    · subst hi
      simp at h; subst h
      rw [List.replicate_succ, rebaseMask_zero_zero, ih _ rfl]
    · rw [zeros_cons_ne hi] at h
      rw [rebaseMask_left' _ _ hi, ih n h]
      intro _ x hx
      cases n with
      | zero => simp at hx
      | succ n => simp [List.replicate_succ] at hx; exact hx.symm

/-! ### The labelled text after an edit -/

/-- Record a deletion. -/
def Chr.markDel (lab : Lab) (c : Chr α) (n : Nat) : Chr α :=
  if n = 0 then c else { c with delBy := lab :: c.delBy }

/-- Insert `s` at the marked positions of `J`, and record the deletions `Dm`. -/
def addEdit (lab : Lab) (J Dm : List Nat) (s : List α) (l : List (Chr α)) : List (Chr α) :=
  weave J (List.zipWith (Chr.markDel lab) l Dm) (s.map (fun v => ⟨v, some lab, []⟩))

/-- What is known about the insertion mask and the deletion mask of a new edit. -/
structure EditMasks (l : List (Chr α)) (J Dm : List Nat) (s : List α) : Prop where
  zerosJ : zeros J = l.length
  lenS : s.length = J.length - l.length
  J01 : ∀ c ∈ J, c = 0 ∨ c = 1
  lenD : Dm.length = l.length
  D01 : ∀ c ∈ Dm, c = 0 ∨ c = 1

section
variable {lab : Lab} {J Dm : List Nat} {s : List α} {l : List (Chr α)} {revs : List Revision}

theorem map_zipWith_markDel {γ : Type} (f : Chr α → γ) (hf : ∀ c n, f (c.markDel lab n) = f c) :
    ∀ (l : List (Chr α)) (Dm : List Nat), Dm.length = l.length →
    (List.zipWith (Chr.markDel lab) l Dm).map f = l.map f := by
  intro l
  induction l with
  | nil => simp
  | cons c l ih =>
    intro Dm hl
    cases Dm with
    | nil => simp at hl
    | cons d Dm => simp [hf, ih Dm (by simpa using hl)]

theorem mem_zipWith_markDel {c : Chr α} : ∀ (l : List (Chr α)) (Dm : List Nat),
    c ∈ List.zipWith (Chr.markDel lab) l Dm → ∃ c' ∈ l, ∃ n ∈ Dm, c = c'.markDel lab n := by
  intro l
  induction l with
  | nil => simp
  | cons x l ih =>
    intro Dm
    cases Dm with
    | nil => simp
    | cons d Dm =>
      simp only [List.zipWith_cons_cons, List.mem_cons]
      rintro (rfl | h)
      · exact ⟨x, by simp, d, by simp, rfl⟩
      · obtain ⟨c', h1, n, h2, h3⟩ := ih Dm h
        exact ⟨c', by simp [h1], n, by simp [h2], h3⟩

theorem mem_weave {β : Type} {x : β} : ∀ (o : List Nat) (xs ys : List β), x ∈ weave o xs ys → x ∈ xs ∨ x ∈ ys := by
  intro o
  induction o with
  | nil => simp
  | cons i o ih =>
    intro xs ys h
    cases i with
    | zero =>
      cases xs with
      | nil => simp at h
      | cons a xs =>
        simp at h
        rcases h with rfl | h
        · simp
        · rcases ih _ _ h with h | h <;> simp [h]
    | succ i =>
      cases ys with
      | nil => simp at h
      | cons a ys =>
        simp at h
        rcases h with rfl | h
        · simp
        · rcases ih _ _ h with h | h <;> simp [h]

@[simp] theorem insMark_markDel (c : Chr α) (n id) : (c.markDel lab n).insMark id = c.insMark id := by
  unfold Chr.markDel; split <;> rfl
@[simp] theorem val_markDel (c : Chr α) (n) : (c.markDel lab n).val = c.val := by
  unfold Chr.markDel; split <;> rfl

theorem insMark_new (v : α) : (⟨v, some lab, []⟩ : Chr α).insMark lab.id = 1 := by simp [insMark, insertedBy]

/-- No character of the old text mentions the new edit. -/
theorem RevsOk.no_label (hk : RevsOk l revs) (hf : lab.id ∉ ids revs) :
    ∀ c ∈ l, c.insMark lab.id = 0 ∧ (∀ d ∈ c.delBy, d.id ≠ lab.id) := by
  intro c hc
  refine ⟨c.insMark_eq_zero_of_present hf (hk.present_all hc), ?_⟩
  intro d hd he
  obtain ⟨r, h3, h4, _⟩ := (hk.chr c hc).delLab d hd
  exact hf (mem_ids.2 ⟨r, h3, h4.trans he⟩)

theorem EditMasks.lens (hm : EditMasks l J Dm s) :
    (List.zipWith (Chr.markDel lab) l Dm).length = zeros J ∧
    (s.map (fun v => (⟨v, some lab, []⟩ : Chr α))).length = J.length - zeros J := by
  have := hm.zerosJ; have := hm.lenS; have := hm.lenD
  simp; omega

theorem EditMasks.insMask (hm : EditMasks l J Dm s) (hk : RevsOk l revs) (hf : lab.id ∉ ids revs) :
    (addEdit lab J Dm s l).map (insMark lab.id) = J := by
  have h1 := hm.zerosJ; have h2 := hm.lenS
  rw [addEdit, map_weave, map_zipWith_markDel _ (by simp) l Dm hm.lenD, List.map_map]
  have e1 : l.map (insMark lab.id) = List.replicate l.length 0 := by
    rw [List.eq_replicate_iff]
    refine ⟨by simp, ?_⟩
    intro b hb
    obtain ⟨c, hc, rfl⟩ := List.mem_map.1 hb
    exact (hk.no_label hf c hc).1
  have e2 : s.map (insMark lab.id ∘ fun v => (⟨v, some lab, []⟩ : Chr α)) = List.replicate s.length 1 := by
    rw [List.eq_replicate_iff]
    refine ⟨by simp, ?_⟩
    intro b hb
    obtain ⟨c, hc, rfl⟩ := List.mem_map.1 hb
    exact insMark_new c
  rw [e1, e2, weave_self01 J hm.J01 _ _ h1.symm (by omega)]

theorem EditMasks.old (hm : EditMasks l J Dm s) (hk : RevsOk l revs) (hf : lab.id ∉ ids revs) :
    (addEdit lab J Dm s l).filter (fun c => c.insMark lab.id == 0) = List.zipWith (Chr.markDel lab) l Dm := by
  rw [← keep_map_self, hm.insMask hk hf, addEdit, keep_weave _ _ _ hm.lens.1 hm.lens.2]

theorem EditMasks.delMask (hm : EditMasks l J Dm s) (hk : RevsOk l revs) (hf : lab.id ∉ ids revs) :
    (addEdit lab J Dm s l).map (delMark lab.id) = expandMask J Dm := by
  have e1 : ∀ (l : List (Chr α)) (Dm : List Nat), Dm.length = l.length → (∀ c ∈ Dm, c = 0 ∨ c = 1) →
      (∀ c ∈ l, ∀ d ∈ c.delBy, d.id ≠ lab.id) →
      (List.zipWith (Chr.markDel lab) l Dm).map (delMark lab.id) = Dm := by
    intro l
    induction l with
    | nil => intro Dm h _ _; simp at h; simp [h]
    | cons c l ih =>
      intro Dm h h1 h2
      cases Dm with
      | nil => simp at h
      | cons d Dm =>
        simp only [List.zipWith_cons_cons, List.map_cons, List.cons.injEq]
        refine ⟨?_, ih Dm (by simpa using h) (fun c hc => h1 c (by simp [hc])) (fun c hc => h2 c (by simp [hc]))⟩
        rcases h1 d (by simp) with rfl | rfl
        · unfold Chr.markDel delMark deletedBy
          rw [if_pos rfl, if_neg]
          rw [Bool.not_eq_true, List.any_eq_false]
          intro d hd
          simpa using h2 c (by simp) d hd
        · unfold Chr.markDel delMark deletedBy
          simp
  have e2 := e1 l Dm hm.lenD hm.D01 (fun c hc => (hk.no_label hf c hc).2)
  rw [← hm.old hk hf] at e2
  have e3 : expandMask J Dm = expandMask ((addEdit lab J Dm s l).map (insMark lab.id))
      (((addEdit lab J Dm s l).filter (fun c => c.insMark lab.id == 0)).map (delMark lab.id)) := by
    rw [e2, hm.insMask hk hf]
  rw [e3, expandMask_map]
  apply List.map_congr_left
  intro c hc
  rcases mem_weave _ _ _ hc with h | h
  · obtain ⟨c', h1, n, h2, rfl⟩ := mem_zipWith_markDel _ _ h
    rw [if_pos]
    simp [(hk.no_label hf c' h1).1]
  · obtain ⟨v, _, rfl⟩ := List.mem_map.1 h
    rw [if_neg (by rw [insMark_new]; simp)]
    rfl

theorem EditMasks.vals (hm : EditMasks l J Dm s) :
    (addEdit lab J Dm s l).map val = weave J (l.map val) s := by
  rw [addEdit, map_weave, map_zipWith_markDel _ (by simp) l Dm hm.lenD, List.map_map]
  congr 1
  simp [Function.comp_def]

theorem EditMasks.length (hm : EditMasks l J Dm s) : (addEdit lab J Dm s l).length = J.length := by
  rw [addEdit, weave_length _ _ _ hm.lens.1 hm.lens.2]

theorem EditMasks.ext (hm : EditMasks l J Dm s) (hk : RevsOk l revs) (hf : lab.id ∉ ids revs) :
    Ext lab l (addEdit lab J Dm s l) := by
  have hcase : ∀ c ∈ addEdit lab J Dm s l, (∃ c' ∈ l, ∃ n, c = c'.markDel lab n) ∨
      ∃ v, c = ⟨v, some lab, []⟩ := by
    intro c hc
    rcases mem_weave _ _ _ hc with h | h
    · obtain ⟨c', h1, n, _, h3⟩ := mem_zipWith_markDel _ _ h
      exact Or.inl ⟨c', h1, n, h3⟩
    · obtain ⟨v, _, h3⟩ := List.mem_map.1 h
      exact Or.inr ⟨v, h3.symm⟩
  refine ⟨?_, ?_, ?_, ?_⟩
  · rw [hm.old hk hf]
    have : ∀ (l : List (Chr α)) (Dm : List Nat), Dm.length = l.length →
        (∀ c ∈ l, ∀ d ∈ c.delBy, d.id ≠ lab.id) →
        (List.zipWith (Chr.markDel lab) l Dm).map (undelete lab.id) = l := by
      intro l
      induction l with
      | nil => simp
      | cons c l ih =>
        intro Dm h h2
        cases Dm with
        | nil => simp at h
        | cons d Dm =>
          simp only [List.zipWith_cons_cons, List.map_cons, List.cons.injEq]
          refine ⟨?_, ih Dm (by simpa using h) (fun c hc => h2 c (by simp [hc]))⟩
          have : c.delBy.filter (fun d => d.id != lab.id) = c.delBy :=
            List.filter_eq_self.2 (fun d hd => by simpa using h2 c (by simp) d hd)
          unfold Chr.markDel undelete
          split <;> simp [this]
    exact this l Dm hm.lenD (fun c hc => (hk.no_label hf c hc).2)
  · intro c hc hi
    rcases hcase c hc with ⟨c', h1, n, rfl⟩ | ⟨v, rfl⟩
    · rw [insMark_markDel, (hk.no_label hf c' h1).1] at hi
      exact absurd rfl hi
    · exact ⟨rfl, rfl⟩
  · intro c hc d hd he
    rcases hcase c hc with ⟨c', h1, n, rfl⟩ | ⟨v, rfl⟩
    · unfold Chr.markDel at hd
      split at hd
      · exact absurd he ((hk.no_label hf c' h1).2 d hd)
      · simp only [List.mem_cons] at hd
        rcases hd with rfl | hd
        · rfl
        · exact absurd he ((hk.no_label hf c' h1).2 d hd)
    · simp at hd
  · intro c hc
    rcases hcase c hc with ⟨c', h1, n, rfl⟩ | ⟨v, rfl⟩
    · unfold Chr.markDel
      split
      · exact (hk.chr c' h1).nodup
      · simp only [List.map_cons, List.nodup_cons]
        refine ⟨?_, (hk.chr c' h1).nodup⟩
        intro hm'
        obtain ⟨d, h2, h3⟩ := List.mem_map.1 hm'
        exact (hk.no_label hf c' h1).2 d h2 h3
    · simp

end

theorem Ext.unionAt_all {lab : Lab} {l l' : List (Chr α)} {revs : List Revision} (h : Ext lab l l')
    (hk : RevsOk l revs) : Xi.unionAt l' (ids revs ++ [lab.id]) = l' := by
  rw [Xi.unionAt, List.filter_eq_self]
  intro c hc
  by_cases hi : c.insMark lab.id = 0
  · have := hk.present_all (h.mem_old hc hi)
    rw [present_undelete] at this
    unfold present at this ⊢
    cases hib : c.insBy with
    | none => rfl
    | some a => rw [hib] at this; simp at this ⊢; exact Or.inl this
  · obtain ⟨h1, _⟩ := h.new c hc hi
    unfold present; rw [h1]; simp

variable {e : Engine α} {l : List (Chr α)}

/-- The last part of `mk_new_rev`: given the new edit on the union text. -/
theorem Den.finishRev (h : Den e l) (p g : Nat) {ins : InsertDelta α} {nd : Subset} {J Dm : List Nat}
    {s : List α} (hins : ins.Denotes l.length J s) (hpos : ins.Pos) (hnd : nd.Is Dm)
    (hlen : Dm.length = l.length) (h01 : ∀ c ∈ Dm, c = 0 ∨ c = 1) :
    ∃ nr : Engine.NewRev α, e.finishRev p g ins nd = some nr ∧
      nr.rev.revId = e.nextRevId ∧ nr.rev.group? = some g ∧
      (∃ i d m, nr.rev = ⟨e.nextRevId, m, .edit p g i d⟩ ∧ i.Is J ∧ d.Is (expandMask J Dm)) ∧
      Den { e with revIdCounter := e.revIdCounter + 1, revs := e.revs ++ [nr.rev], text := nr.text,
                   tombstones := nr.tombstones, deletesFromUnion := nr.deletesFromUnion }
        (addEdit ⟨e.nextRevId, g⟩ J Dm s l) ∧
      backStep true ((addEdit ⟨e.nextRevId, g⟩ J Dm s l).map (cnt e.undoneGroups (ids (e.revs ++ [nr.rev]))),
          e.undoneGroups) nr.rev =
        (l.map (cnt e.undoneGroups (ids e.revs)), e.undoneGroups) := by
  have hm : EditMasks l J Dm s := ⟨hins.zeros, hins.length, hins.mask01, hlen, h01⟩
  have hJl : l.length ≤ J.length := hm.zerosJ ▸ zeros_le_length J
  generalize hlab : (⟨e.nextRevId, g⟩ : Lab) = lab
  have hlid : lab.id = e.nextRevId := by rw [← hlab]
  have hlg : lab.group = g := by rw [← hlab]
  have hfr : lab.id ∉ ids e.revs := by rw [hlid]; exact h.fresh_id
  have hext := hm.ext (lab := lab) h.revsOk hfr
  -- the subsets
  obtain ⟨i, i1, i2n, i2c⟩ := hins.insertedSubset hpos
  have i2 : i.Is J := ⟨i2n, i2c⟩
  obtain ⟨d, d1, d2⟩ := hnd.expand_opt i2 (by rw [hlen, hm.zerosJ])
  obtain ⟨ti, t1, t2⟩ := InsertDelta.transformShrink_spec e.deletesFromUnion
    (d := ins) (I := J) (s := s) (by rw [h.length_dels]; exact hins)
  rw [h.dels.2] at t2
  have htl : e.text.length = zeros (l.map (cnt e.undoneGroups (ids e.revs))) := by
    rw [h.text, keep_length _ _ (by simp)]
  have tap := t2.apply (base := e.text) htl
  obtain ⟨rb, r1, r2⟩ := h.dels.expand i2 (by rw [hm.zerosJ]; simp)
  -- the new revision
  obtain ⟨pre, last, hl1, hl2⟩ := h.last
  let r : Revision := ⟨e.nextRevId, max g last.maxUndoSoFar, .edit p g i d⟩
  have hrg : r.group? = some g := rfl
  have hrk : RevOk (addEdit lab J Dm s l) (ids e.revs) r := by
    unfold RevOk
    simp only [r]
    rw [← hlid, hext.unionAt_all h.revsOk, hm.insMask h.revsOk hfr, hm.delMask h.revsOk hfr]
    exact ⟨i2, d2⟩
  have hk : RevsOk (addEdit lab J Dm s l) (e.revs ++ [r]) :=
    hext.revsOk h.revsOk hlid.symm hfr (Or.inl (by rw [hlg]; exact hrg)) hrk
  have hD0 : cntMask (addEdit lab J Dm s l) e.undoneGroups (ids e.revs) =
      l.map (cnt e.undoneGroups (ids e.revs)) := by
    rw [hext.cntMask hfr, h.revsOk.cntMask_all]
  have hsplit : e.revs ++ [r] = e.revs ++ r :: [] := rfl
  have hfwd := hk.cntMask_fwd hsplit hrg e.undoneGroups
  have hall : cntMask (addEdit lab J Dm s l) e.undoneGroups (ids e.revs ++ [r.revId]) =
      (addEdit lab J Dm s l).map (cnt e.undoneGroups (ids (e.revs ++ [r]))) := by
    rw [← hk.cntMask_all, ids_append]; rfl
  have hrid : r.revId = lab.id := hlid.symm
  rw [hall, hD0, hrid, hext.unionAt_all h.revsOk, hm.insMask h.revsOk hfr, hm.delMask h.revsOk hfr] at hfwd
  -- the new deletions
  have hDlen : (l.map (cnt e.undoneGroups (ids e.revs))).length = zeros J := by rw [hm.zerosJ]; simp
  have hnew : ∃ nD, rb.union (if e.undoneGroups.contains g then i else d) = some nD ∧
      nD.Is ((addEdit lab J Dm s l).map (cnt e.undoneGroups (ids (e.revs ++ [r])))) := by
    rw [hfwd]
    by_cases hG : e.undoneGroups.contains g
    · rw [if_pos hG, if_pos hG]
      obtain ⟨nD, n1, n2⟩ := r2.union i2 (by simp)
      refine ⟨nD, n1, ?_⟩
      rw [unionMask_eq_add _ _ hDlen, List.zipWith_comm_of_comm (fun x y => Nat.add_comm x y)]
      exact n2
    · rw [if_neg hG, if_neg hG]
      exact r2.union d2 (by simp)
  obtain ⟨nD, n1, n2⟩ := hnew
  -- shuffling
  have hv := hm.vals (lab := lab)
  have hlenv : ((addEdit lab J Dm s l).map val).length = J.length := by rw [List.length_map, hm.length]
  have hsh := shuffle_spec r2 n2 ((addEdit lab J Dm s l).map val) (by rw [hlenv]; simp) (by simp)
  have hlenS : s.length = J.length - zeros J := by rw [hm.lenS, hm.zerosJ]
  rw [hv, keep_expand_weave J _ (l.map val) s hDlen (by simp) hlenS,
    keep_flip_expand_weave J _ (l.map val) s hDlen (by simp) hlenS, ← h.text, ← h.tombs, ← hv] at hsh
  let nr : Engine.NewRev α := ⟨r, keep ((addEdit lab J Dm s l).map (cnt e.undoneGroups (ids (e.revs ++ [r]))))
      ((addEdit lab J Dm s l).map val),
    keep (flipMask ((addEdit lab J Dm s l).map (cnt e.undoneGroups (ids (e.revs ++ [r])))))
      ((addEdit lab J Dm s l).map val), nD⟩
  have hfin : e.finishRev p g ins nd = some nr := by
    simp only [Engine.finishRev, i1, Option.bind_eq_bind, Option.bind_some]
    have key : ∀ (F : Subset → Option (Engine.NewRev α)),
        (if i.isEmpty = true then F nd else (nd.transformExpand i).bind F) = F d := by
      intro F
      by_cases hi : i.isEmpty = true
      · rw [if_pos hi] at d1 ⊢; cases d1; rfl
      · rw [if_neg hi] at d1 ⊢; rw [d1]; rfl
    first
      | (rw [key]; simp only [t1, Option.bind_some, tap, r1, n1, hsh, hl2]; rfl)
      | (by_cases hi : i.isEmpty = true
         · rw [if_pos hi] at d1 ⊢; cases d1
           simp only [t1, Option.bind_some, tap, r1, n1, hsh, hl2]; rfl
         · rw [if_neg hi] at d1 ⊢; rw [d1]
           simp only [t1, Option.bind_some, tap, r1, n1, hsh, hl2]; rfl)
  have hback : backStep true ((addEdit lab J Dm s l).map (cnt e.undoneGroups (ids (e.revs ++ [r]))),
          e.undoneGroups) r = (l.map (cnt e.undoneGroups (ids e.revs)), e.undoneGroups) := by
    have := hk.back_eq hsplit hrg e.undoneGroups
    rw [hall, hD0, hrid, hext.unionAt_all h.revsOk, hm.insMask h.revsOk hfr, hm.delMask h.revsOk hfr] at this
    unfold backStep
    simp only [r]
    rw [i2.2, d2.2, this]
    split <;> rfl
  refine ⟨nr, hfin, rfl, rfl, ⟨i, d, _, rfl, i2, d2⟩, ?_, hback⟩
  refine ⟨hk, by simp, ?_, ?_, ?_, n2, rfl, rfl, ?_⟩
  · intro r' hr' hs
    simp only [List.mem_append, List.mem_singleton] at hr'
    rcases hr' with hr' | rfl
    · have := h.fresh r' hr' hs; exact Nat.lt_succ_of_lt this
    · exact Nat.lt_succ_self _
  · simp only [nr]
    rw [List.map_append, List.pairwise_append]
    refine ⟨h.maxSorted, by simp, ?_⟩
    intro a ha b hb
    simp only [List.map_cons, List.map_nil, List.mem_singleton] at hb
    subst hb
    obtain ⟨r', h1, rfl⟩ := List.mem_map.1 ha
    have := h.maxSorted
    rw [hl1, List.map_append, List.pairwise_append] at this
    rw [hl1] at h1
    simp only [List.mem_append, List.mem_singleton] at h1
    have h3 : r'.maxUndoSoFar ≤ last.maxUndoSoFar := by
      rcases h1 with h1 | rfl
      · exact this.2.2 _ (List.mem_map_of_mem h1) _ (by simp)
      · exact Nat.le_refl _
    simp only [r]
    omega
  · intro r' hr' g' hg'
    simp only [List.mem_append, List.mem_singleton] at hr'
    rcases hr' with hr' | rfl
    · exact h.maxGroup r' hr' g' hg'
    · simp only [nr] at hg' ⊢
      rw [hrg] at hg'; cases hg'
      simp only [r]; omega
  · intro pre' post' hs
    simp only at hs ⊢
    rcases List.eq_nil_or_concat post' with rfl | ⟨post'', y, rfl⟩
    · rw [List.append_nil] at hs
      rw [← hs, hk.cntMask_all]
      exact ListLe.refl _
    · have hs' : e.revs ++ [nr.rev] = (pre' ++ post'') ++ [y] := by simp [hs]
      obtain ⟨h1, h2⟩ := List.append_inj' hs' rfl
      simp only [List.cons.injEq, and_true] at h2
      subst h2
      rw [List.concat_eq_append, backTo_snoc]
      simp only [nr]
      rw [hback]
      have hp : lab.id ∉ ids pre' := fun hm' => hfr (by rw [h1]; simp [hm'])
      rw [hext.cntMask hp]
      exact h.hist pre' post'' h1

/-! ### Carrying an edit from its base to the head -/

theorem expandMask_add : ∀ (J a b : List Nat), a.length = zeros J → b.length = a.length →
    expandMask J (List.zipWith (fun x y => x + y) a b) =
      List.zipWith (fun x y => x + y) (expandMask J a) (expandMask J b) := by
  intro J
  induction J with
  | nil => simp
  | cons i J ih =>
    intro a b h1 h2
    by_cases hi : i = 0
    · subst hi
      cases a with
      | nil => simp at h1
      | cons x a => cases b with
        | nil => simp at h2
        | cons y b => simp at h1 h2; simp [ih a b h1 h2]
    · rw [zeros_cons_ne hi] at h1
      simp [expandMask_left hi, ih a b h1 h2]

/-- The insertion mask `J` on the union text, seen without the characters that
are marked by `B`, is `I`. -/
def Carries (I B J : List Nat) : Prop := zeros J = B.length ∧ keep (expandMask J B) J = I

theorem Carries.start {I B : List Nat} (h : zeros I = zeros B) (after : Bool) :
    Carries I B (rebaseMask after I B) :=
  ⟨rebaseMask_zeros_eq I B h, keep_rebase I B h⟩

theorem Carries.step {I B J : List Nat} (h : Carries I B J) {K : List Nat} (hK : zeros K = B.length)
    (after : Bool) : Carries I (unionMask K B) (rebaseMask after J K) := by
  have hz : zeros J = zeros K := by rw [h.1, hK]
  refine ⟨by rw [rebaseMask_zeros_eq J K hz, unionMask_length], ?_⟩
  have hz' := rebaseMask_zeros_eq (after := after) J K hz
  rw [unionMask_eq_add K B hK.symm, expandMask_add _ _ _ hz'.symm (by simp),
    keep_add _ _ (by simp) _ (by simp), keep_rebase_expand J K B hz hK.symm, keep_rebase J K hz, h.2]

/-- Seen without the characters marked by `B`, the insertion is the one that was
made against the base text. -/
theorem Carries.text {I B J : List Nat} (h : Carries I B J) (U s : List α) (hU : U.length = B.length)
    (hs : s.length = J.length - zeros J) :
    keep (expandMask J B) (weave J U s) = weave I (keep B U) s := by
  rw [keep_expand_weave J B U s h.1.symm hU hs, h.2]

theorem Carries.len {I B J : List Nat} (h : Carries I B J) (hI : zeros I = zeros B) :
    I.length - zeros I = J.length - zeros J := by
  have h1 : I.length = zeros (expandMask J B) := by
    rw [← h.2, keep_length _ _ (by simp)]
  have : ∀ (J B : List Nat), B.length = zeros J → zeros (expandMask J B) = zeros B + (J.length - zeros J) := by
    intro J
    induction J with
    | nil => intro B hB; simp at hB; subst hB; simp
    | cons i J ih =>
      intro B hB
      have := zeros_le_length J
      by_cases hi : i = 0
      · subst hi
        cases B with
        | nil => simp at hB
        | cons b B =>
          simp at hB
          have := ih B hB
          by_cases hb : b = 0
          · subst hb; simp; omega
          · simp [zeros_cons_ne hb]; omega
      · rw [zeros_cons_ne hi] at hB
        rw [expandMask_left hi, zeros_cons_ne hi]
        have := ih B hB
        simp; omega
  have := this J B h.1.symm
  omega

theorem Carries.dels {I B J del : List Nat} (h : Carries I B J) (hI : zeros I = zeros B)
    (hd : del.length = zeros B) :
    keep (expandMask J B) (expandMask J (expandMask B del)) = expandMask I del := by
  have hB : (expandMask B del).length = zeros J := by rw [h.1]; simp
  have hl := h.len hI
  rw [expandMask_eq_weave J (expandMask B del) hB _ rfl, h.text _ _ (by simp) (by simp),
    keep_expandMask B del hd, ← hl, ← expandMask_eq_weave I del (by omega) _ rfl]

/-- The insertion mask `J`, carried over the revisions `post`. -/
def carryMask (prio : FullPriority) : List Nat → List Revision → List Nat
  | J, [] => J
  | J, r :: post =>
    match r.edit with
    | .edit p _ i _ => carryMask prio (rebaseMask (prio.ge ⟨p, r.revId.sessionId⟩) J i.counts) post
    | .undo _ _ => carryMask prio J post

theorem RevsOk.rebase {revs : List Revision} (h : RevsOk l revs) (prio : FullPriority) {I del : List Nat}
    {s : List α} : ∀ (post pre : List Revision), revs = pre ++ post →
    ∀ (ins : InsertDelta α) (nd : Subset) (J B : List Nat), ins.Denotes B.length J s → ins.Pos → Carries I B J →
    del.length = zeros B → nd.Is (expandMask B del) → B.length = (unionAt l (ids pre)).length →
    ∃ ins' nd' J', post.foldlM (Engine.rebaseStep prio) (ins, nd) = some (ins', nd') ∧
      ins'.Denotes l.length J' s ∧ ins'.Pos ∧ Carries I (fwdMask B post) J' ∧
      del.length = zeros (fwdMask B post) ∧
      nd'.Is (expandMask (fwdMask B post) del) ∧ J' = carryMask prio J post := by
  intro post
  induction post with
  | nil =>
    intro pre hs ins nd J B h1 h2 h3 h4 h5 h6
    rw [List.append_nil] at hs
    rw [← hs, h.unionAt_all] at h6
    exact ⟨ins, nd, J, rfl, h6 ▸ h1, h2, h3, h4, h5, rfl⟩
  | cons r post ih =>
    intro pre hs ins nd J B h1 h2 h3 h4 h5 h6
    have hr := h.rev pre r post hs
    unfold RevOk at hr
    simp only [List.foldlM_cons, Engine.rebaseStep, fwdMask, carryMask]
    cases he : r.edit with
    | edit p g i d =>
      rw [he] at hr
      simp only
      have hK : zeros i.counts = B.length := by rw [hr.1.2, h.insMask_zeros hs, h6]
      have hlen : i.counts.length = (unionAt l (ids (pre ++ [r]))).length := by rw [hr.1.2]; simp
      have hdl : del.length = zeros (unionMask i.counts B) := by rw [zeros_unionMask _ _ hK.symm, h4]
      have hBl : (unionMask i.counts B).length = i.counts.length := unionMask_length _ _
      by_cases hemp : i.isEmpty = true
      · rw [if_pos hemp]
        have hz := hr.1.zeros_of_isEmpty hemp
        rw [← hr.1.2] at hz
        have hil : i.counts.length = B.length := by rw [← hK, hz]; simp
        rw [hil] at hz
        have hu : unionMask i.counts B = B := by rw [hz]; exact Subset.Is.unionMask_zeros _ _ rfl
        rw [hu, show rebaseMask (prio.ge ⟨p, r.revId.sessionId⟩) J i.counts = J by rw [hz]; exact rebaseMask_of_zeros _ _ _ h1.zeros]
        exact ih (pre ++ [r]) (by simp [hs]) ins nd J B h1 h2 h3 h4 h5 (by omega)
      · rw [if_neg hemp]
        obtain ⟨ins1, a1, a2, a3⟩ := InsertDelta.transformExpand_spec i hr.1.1 (hK ▸ h1) h2
          (prio.ge ⟨p, r.revId.sessionId⟩)
        obtain ⟨nd1, b1, b2⟩ := h5.expand ⟨hr.1.1, rfl⟩ (by simp [hK])
        simp only [a1, b1, Option.bind_eq_bind, Option.bind_some, Option.pure_def]
        refine ih (pre ++ [r]) (by simp [hs]) ins1 nd1 _ (unionMask i.counts B) (hBl ▸ a2) a3
          (h3.step hK _) hdl ?_ (by rw [hBl, hlen])
        rw [expandMask_unionMask _ _ _ hK.symm h4]
        exact b2
    | undo t x =>
      simp only [Option.bind_eq_bind, Option.bind_some]
      exact ih (pre ++ [r]) (by simp [hs]) ins nd J B h1 h2 h3 h4 h5
        (by rw [ids_append, show ids [r] = [r.revId] from rfl,
              h.unionAt_undo hs (by simp [Revision.group?, he]), h6])

theorem zeros_fwdMask {revs : List Revision} (h : RevsOk l revs) : ∀ (post pre : List Revision), revs = pre ++ post →
    ∀ B : List Nat, B.length = (unionAt l (ids pre)).length → zeros (fwdMask B post) = zeros B := by
  intro post
  induction post with
  | nil => intros; rfl
  | cons r post ih =>
    intro pre hs B hB
    have hr := h.rev pre r post hs
    unfold RevOk at hr
    unfold fwdMask
    cases he : r.edit with
    | edit p g i d =>
      rw [he] at hr
      have hK : zeros i.counts = B.length := by rw [hr.1.2, h.insMask_zeros hs, hB]
      simp only
      rw [ih (pre ++ [r]) (by simp [hs]) _ (by rw [unionMask_length, hr.1.2]; simp), zeros_unionMask _ _ hK.symm]
    | undo t x =>
      simp only
      exact ih (pre ++ [r]) (by simp [hs]) B (by rw [ids_append, show ids [r] = [r.revId] from rfl,
              h.unionAt_undo hs (by simp [Revision.group?, he]), hB])

theorem mem_delMask {n c : Nat} : ∀ {els : List (DeltaElement α)} {lo : Nat}, c ∈ delMask n lo els →
    c = 0 ∨ c = 1 := by
  intro els
  induction els with
  | nil => intro lo h; exact Or.inr (List.eq_of_mem_replicate h)
  | cons x els ih =>
    intro lo h
    cases x with
    | copy b e =>
      simp only [delMask, List.mem_append, List.mem_replicate] at h
      rcases h with (⟨_, rfl⟩ | ⟨_, rfl⟩) | h
      · simp
      · simp
      · exact ih h
    | insert t => exact ih h

/-- Committing a well-formed edit of the right length against a known revision;
its insertions are carried over the revisions since then, one by one. -/
theorem Den.edit_carry (tok : RevId → Nat) (h : Den e l) {pre post : List Revision} {r : Revision}
    (hs : e.revs = pre ++ r :: post) (t : Nat) (ht : e.findRevToken tok t = some pre.length)
    (p g : Nat) (d : Delta α) (hd : d.WF) (hl : d.baseLen = zeros (revMask e l post)) :
    ∃ I del s J e' r', d.result (keep (revMask e l post) (l.map val)) =
        keep (expandMask I del) (weave I (keep (revMask e l post) (l.map val)) s) ∧
      zeros I = d.baseLen ∧ s.length = I.length - d.baseLen ∧ del.length = d.baseLen ∧
      Carries I (revMask e l post) J ∧ EditMasks l J (expandMask (revMask e l post) del) s ∧
      e.tryEditRev tok p g t d = some (.ok e') ∧
      Den e' (addEdit ⟨e.nextRevId, g⟩ J (expandMask (revMask e l post) del) s l) ∧
      e'.undoneGroups = e.undoneGroups ∧ e'.session = e.session ∧
      e'.revs = e.revs ++ [r'] ∧ r'.revId = e.nextRevId ∧ r'.group? = some g ∧
      (∃ i x m, r' = ⟨e.nextRevId, m, .edit p g i x⟩ ∧ i.Is J ∧
        x.Is (expandMask J (expandMask (revMask e l post) del))) ∧
      backStep true ((addEdit ⟨e.nextRevId, g⟩ J (expandMask (revMask e l post) del) s l).map
          (cnt e.undoneGroups (ids e'.revs)), e.undoneGroups) r' =
        (l.map (cnt e.undoneGroups (ids e.revs)), e.undoneGroups) ∧
      ∃ J0, zeros J0 = (unionAt l (ids (pre ++ [r]))).length ∧ J = carryMask ⟨p, e.session⟩ J0 post := by
  obtain ⟨S, a1, a2, a3⟩ := h.for_index (pre := pre ++ [r]) (post := post) (by simp [hs])
  generalize hB0 : (backTo true (l.map (cnt e.undoneGroups (ids e.revs)), e.undoneGroups) post).1 = B0 at a2 a3
  have hrm : revMask e l post = fwdMask B0 post := by rw [revMask, hB0]
  have hz0 : zeros (fwdMask B0 post) = zeros B0 :=
    zeros_fwdMask h.revsOk post (pre ++ [r]) (by simp [hs]) B0 a3
  have hlenM : (fwdMask B0 post).length = l.length := by
    obtain ⟨S', _, _, b3⟩ := h.cur_union hs
    rw [← hrm]; exact b3
  rw [hrm] at hl ⊢
  rw [hz0] at hl
  obtain ⟨ins, del, I, s, f1, f2, f3, f4, f5, f6, f7⟩ :=
    Delta.factor_spec d (keep (fwdMask B0 post) (l.map val)) hd (by rw [keep_length _ _ (by simp [hlenM]), hz0, hl])
  have f4' : del.Is del.counts := ⟨f4, rfl⟩
  obtain ⟨ins1, g1, g2, g3⟩ := InsertDelta.transformExpand_spec S a2.1 (by rw [a2.2, ← hl]; exact f2) f3 true
  obtain ⟨nd1, n1, n2⟩ := f4'.expand a2 (by rw [f5, hl])
  rw [a2.2] at g2
  have hzI : zeros I = zeros B0 := by rw [f2.zeros, hl]
  obtain ⟨ins', nd', J, c1, c2, c3, c4, c5, c6, c7⟩ := h.revsOk.rebase ⟨p, e.session⟩ (I := I) (del := del.counts) post
    (pre ++ [r]) (by simp [hs]) ins1 nd1 _ B0 g2 g3 (Carries.start hzI true) (by rw [f5, hl]) n2 a3
  have hD01 : ∀ c ∈ expandMask (fwdMask B0 post) del.counts, c = 0 ∨ c = 1 := by
    intro c hc
    rw [expandMask_eq_weave _ _ c5 _ rfl] at hc
    rcases mem_weave _ _ _ hc with hc | hc
    · rw [f6] at hc
      exact mem_delMask hc
    · exact Or.inl (List.eq_of_mem_replicate hc)
  obtain ⟨nr, k1, k2, k3, k6, k4, k5⟩ := h.finishRev p g c2 c3 c6 (by simp [hlenM]) hD01
  refine ⟨I, del.counts, s, J, _, nr.rev, f7, f2.zeros, f2.length, f5, c4,
    ⟨c2.zeros, c2.length, c2.mask01, by simp [hlenM], hD01⟩, ?_, k4, rfl, rfl, rfl, k2, k3, k6, k5, _, by rw [g2.zeros, a3], c7⟩
  have hdrop : e.revs.drop (pre.length + 1) = post := by rw [hs]; simp
  have hdi : e.deletesFromUnionForIndex pre.length = some S := by
    rw [Engine.deletesFromUnionForIndex]
    simp only [List.length_append, List.length_cons, List.length_nil] at a1
    exact a1
  have hbl : ins.d.baseLen = S.lenAfterDelete := by rw [a2.lenAfterDelete, f2.base, hl]
  simp only [Engine.tryEditRev, Engine.mkNewRev, ht, f1, hdi, Option.bind_eq_bind, Option.bind_some,
    hbl, ne_eq, not_true_eq_false, if_false, g1, n1, hdrop, c1, k1]
  rfl

/-- Committing a well-formed edit of the right length against a known revision. -/
theorem Den.edit (tok : RevId → Nat) (h : Den e l) {pre post : List Revision} {r : Revision}
    (hs : e.revs = pre ++ r :: post) (t : Nat) (ht : e.findRevToken tok t = some pre.length)
    (p g : Nat) (d : Delta α) (hd : d.WF) (hl : d.baseLen = zeros (revMask e l post)) :
    ∃ I del s J e' r', d.result (keep (revMask e l post) (l.map val)) =
        keep (expandMask I del) (weave I (keep (revMask e l post) (l.map val)) s) ∧
      zeros I = d.baseLen ∧ s.length = I.length - d.baseLen ∧ del.length = d.baseLen ∧
      Carries I (revMask e l post) J ∧ EditMasks l J (expandMask (revMask e l post) del) s ∧
      e.tryEditRev tok p g t d = some (.ok e') ∧
      Den e' (addEdit ⟨e.nextRevId, g⟩ J (expandMask (revMask e l post) del) s l) ∧
      e'.undoneGroups = e.undoneGroups ∧ e'.session = e.session ∧
      e'.revs = e.revs ++ [r'] ∧ r'.revId = e.nextRevId ∧ r'.group? = some g ∧
      (∃ i x m, r' = ⟨e.nextRevId, m, .edit p g i x⟩ ∧ i.Is J ∧
        x.Is (expandMask J (expandMask (revMask e l post) del))) ∧
      backStep true ((addEdit ⟨e.nextRevId, g⟩ J (expandMask (revMask e l post) del) s l).map
          (cnt e.undoneGroups (ids e'.revs)), e.undoneGroups) r' =
        (l.map (cnt e.undoneGroups (ids e.revs)), e.undoneGroups) := by
  obtain ⟨I, del, s, J, e', r', h1, h2, h3, h4, h5, h6, h7, h8, h9, h10, h11, h12, h13, h14, h15, _⟩ := h.edit_carry tok hs t ht p g d hd hl
  exact ⟨I, del, s, J, e', r', h1, h2, h3, h4, h5, h6, h7, h8, h9, h10, h11, h12, h13, h14, h15⟩

end Xi
