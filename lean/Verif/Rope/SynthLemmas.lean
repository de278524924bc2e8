import Verif.Rope.DeltaLemmas

/-! # Lemmas about `Delta::synthesize` -/

namespace Xi

variable {α : Type}

theorem zeros_mono_take (cs : List Nat) {a b : Nat} (h : a ≤ b) : zeros (cs.take a) ≤ zeros (cs.take b) := by
  have : cs.take a = (cs.take b).take a := by rw [List.take_take, Nat.min_eq_left h]
  rw [this]
  have h2 := congrArg zeros (List.take_append_drop a (cs.take b))
  rw [zeros_append] at h2
  omega

theorem zeros_take_drop (cs : List Nat) {a b : Nat} (h : a ≤ b) :
    zeros ((cs.take b).drop a) = zeros (cs.take b) - zeros (cs.take a) := by
  have : cs.take a = (cs.take b).take a := by rw [List.take_take, Nat.min_eq_left h]
  rw [this]
  have h2 := congrArg zeros (List.take_append_drop a (cs.take b))
  rw [zeros_append] at h2
  omega

theorem all_zero_of_zeros {cs : List Nat} (h : zeros cs = cs.length) : cs = List.replicate cs.length 0 := by
  rw [List.eq_replicate_iff]
  refine ⟨rfl, fun c hc => ?_⟩
  have := List.countP_eq_length.1 h c hc
  simpa using this

theorem zeros_flipMask_take (cs : List Nat) (j : Nat) :
    zeros ((flipMask cs).take j) = (cs.take j).countP CountMatcher.nonZero.matchesCount := by
  simp only [flipMask, ← List.map_take, zeros, List.countP_map]
  congr 1
  funext c
  by_cases h : c = 0 <;> simp [h, CountMatcher.matchesCount]

theorem ElsWF.mono {n n' lo} {els : List (DeltaElement α)} (h : ElsWF n lo els) (hn : n ≤ n') :
    ElsWF n' lo els := by
  induction els generalizing lo with
  | nil => exact Nat.le_trans h hn
  | cons el els ih =>
    cases el with
    | copy b e => exact ⟨h.1, h.2.1, ih h.2.2⟩
    | insert s => exact ⟨h.1, ih h.2⟩

theorem ElsWF.pushCopy {lo xb xe} (els : List (DeltaElement α)) (h : ElsWF xb lo els) (hx : xb < xe) :
    ElsWF xe lo (Delta.pushCopy xb xe els) := by
  fun_induction Delta.pushCopy xb xe els generalizing lo with
  | case1 => exact ⟨h, hx, Nat.le_refl _⟩
  | case2 lb => simp only [ElsWF] at *; omega
  | case3 lb le hne => simp only [ElsWF] at *; omega
  | case4 s => exact ⟨h.1, h.2, hx, Nat.le_refl _⟩
  | case5 el el' rest ih =>
    cases el with
    | copy b e => exact ⟨h.1, h.2.1, ih h.2.2⟩
    | insert s => exact ⟨h.1, ih h.2⟩

theorem elsText_pushCopy {lo xb xe} (base : List α) (els : List (DeltaElement α)) (h : ElsWF xb lo els)
    (hx : xb ≤ xe) :
    elsText base (Delta.pushCopy xb xe els) = elsText base els ++ (base.take xe).drop xb := by
  fun_induction Delta.pushCopy xb xe els generalizing lo with
  | case1 => simp
  | case2 lb =>
    simp only [ElsWF] at h
    simp only [elsText_copy, elsText_nil, List.append_nil]
    have := take_drop_take (base.take xe) (b := lb) (e := xb) (by omega)
    rw [List.take_take, Nat.min_eq_left hx] at this
    exact this.symm
  | case3 lb le hne => simp
  | case4 s => simp
  | case5 el el' rest ih =>
    cases el with
    | copy b e => rw [elsText_copy, elsText_copy, ih h.2.2, List.append_assoc]
    | insert s => rw [elsText_insert, elsText_insert, ih h.2, List.append_assoc]

theorem ElsWF.pushInsert {n lo} (els : List (DeltaElement α)) (h : ElsWF n lo els) {s : List α} (hs : s ≠ []) :
    ElsWF n lo (els ++ [.insert s]) := by
  induction els generalizing lo with
  | nil => exact ⟨hs, h⟩
  | cons el els ih =>
    cases el with
    | copy b e => exact ⟨h.1, h.2.1, ih h.2.2⟩
    | insert s => exact ⟨h.1, ih h.2⟩

theorem elsMask_pushCopy {lo xb xe} (els : List (DeltaElement α)) (h : ElsWF xb lo els) (hx : xb ≤ xe) :
    elsMask (Delta.pushCopy xb xe els) = elsMask els ++ List.replicate (xe - xb) 0 := by
  induction els generalizing lo with
  | nil => simp [Delta.pushCopy]
  | cons el els ih =>
    cases els with
    | nil =>
      cases el with
      | copy lb le =>
        have h1 : lb < le := h.2.1
        simp only [Delta.pushCopy]
        split
        · rename_i he
          subst he
          simp [List.replicate_append_replicate]; omega
        · simp
      | insert s => simp [Delta.pushCopy]
    | cons el' rest =>
      cases el with
      | copy lb le =>
        have := ih (lo := le) h.2.2
        simp only [Delta.pushCopy, elsMask_copy, this]; simp
      | insert s =>
        have := ih (lo := lo) h.2
        simp only [Delta.pushCopy, elsMask_insert, this]; simp

/-- Marked positions get `1`. -/
def ones (F : List Nat) : List Nat := F.map (fun c => if c = 0 then 0 else 1)

theorem ones_slice_one {F : List Nat} {a b : Nat} (hab : a ≤ b) (hb : b ≤ F.length)
    (hz : zeros (F.take b) = zeros (F.take a)) : ((ones F).take b).drop a = List.replicate (b - a) 1 := by
  have h1 : zeros ((F.take b).drop a) = 0 := by rw [zeros_take_drop _ hab, hz]; simp
  rw [ones, ← List.map_take, ← List.map_drop, List.eq_replicate_iff]
  refine ⟨by simp; omega, ?_⟩
  intro x hx
  obtain ⟨c, hc, rfl⟩ := List.mem_map.1 hx
  rw [zeros, List.countP_eq_zero] at h1
  have := h1 c hc
  simp at this
  rw [if_neg this]

theorem ones_slice_zero {F : List Nat} {a b : Nat} (hab : a ≤ b) (hb : b ≤ F.length)
    (hz : zeros (F.take b) = zeros (F.take a) + (b - a)) : ((ones F).take b).drop a = List.replicate (b - a) 0 := by
  have hl : ((F.take b).drop a).length = b - a := by simp; omega
  have h1 := all_zero_of_zeros (cs := (F.take b).drop a) (by rw [zeros_take_drop _ hab, hl]; omega)
  rw [ones, ← List.map_take, ← List.map_drop, h1, hl]; simp

/-- State of `synthesize` after everything before position `beg` of the union
string has been handled. -/
structure SynthInv (F : List Nat) (beg : Nat) (st : Delta.SynthState α) : Prop where
  old : ∃ lo, RangesFrom lo st.old
  x : ∀ j, beg ≤ j → zeros (F.take j) = st.x + rangesCount st.old j
  m : st.m.Inv F .nonZero
  mi : st.m.lastI ≤ beg
  wf : ElsWF (zeros (F.take beg)) 0 st.els

theorem SynthInv.mono {F beg beg'} {st : Delta.SynthState α} (h : SynthInv F beg st) (hb : beg ≤ beg') :
    SynthInv F beg' st :=
  ⟨h.old, fun j hj => h.x j (by omega), h.m, by have := h.mi; omega, h.wf.mono (zeros_mono_take F hb)⟩

theorem skipOld_spec (beg : Nat) : ∀ (old : List (Nat × Nat)) (x lo : Nat), RangesFrom lo old →
    ∃ lo', RangesFrom lo' (Delta.skipOld beg x old).2 ∧
    (∀ j, beg ≤ j → (Delta.skipOld beg x old).1 + rangesCount (Delta.skipOld beg x old).2 j =
      x + rangesCount old j) ∧
    (∀ r ∈ (Delta.skipOld beg x old).2.head?, beg < r.2) := by
  intro old
  induction old with
  | nil => intro x lo h; exact ⟨lo, h, by simp [Delta.skipOld], by simp [Delta.skipOld]⟩
  | cons r rest ih =>
    intro x lo h
    obtain ⟨ib, ie⟩ := r
    obtain ⟨h1, h2, h3⟩ := h
    simp only [Delta.skipOld]
    by_cases hgt : ie > beg
    · simp only [if_pos hgt]
      exact ⟨lo, ⟨h1, h2, h3⟩, fun j hj => trivial, by simpa using hgt⟩
    · simp only [if_neg hgt]
      obtain ⟨lo', g1, g2, g3⟩ := ih (x + (ie - ib)) _ h3
      refine ⟨lo', g1, ?_, g3⟩
      intro j hj
      rw [g2 j hj]
      simp only at h2 hgt
      simp only [rangesCount, List.map_cons, List.sum_cons]
      omega

theorem take_drop_length (u : List α) {a b : Nat} (hb : b ≤ u.length) :
    ((u.take b).drop a).length = b - a := by simp; omega

theorem take_drop_split (u : List α) {a b c : Nat} (h1 : a ≤ b) (h2 : b ≤ c) :
    (u.take c).drop a = (u.take b).drop a ++ (u.take c).drop b := by
  have := take_drop_take (u.take c) h1
  rw [List.take_take, Nat.min_eq_left h2] at this
  exact this.symm

variable {F : List Nat} {U : List α}

/-- Text deleted in `F` between `beg` and `stop` is found in the tombstones. -/
theorem synth_insert_step (hU : F.length = U.length) {st : Delta.SynthState α} {beg stop : Nat}
    (h : SynthInv F beg st) (hs : beg < stop) (hlen : stop ≤ U.length)
    (hz : zeros (F.take stop) = zeros (F.take beg)) {x old}
    (hold : ∃ lo, RangesFrom lo old) (hx : ∀ j, beg ≤ j → x + rangesCount old j = st.x + rangesCount st.old j) :
    ∃ i1 m1 i2 m2, st.m.docIndexToSubset beg = some (i1, m1) ∧ m1.docIndexToSubset stop = some (i2, m2) ∧
      slice (keep (flipMask F) U) i1 i2 = some ((U.take stop).drop beg) ∧
      SynthInv F stop ⟨st.els ++ [.insert ((U.take stop).drop beg)], x, old, m2⟩ := by
  obtain ⟨m1, a1, a2, a3⟩ := Mapper.step_spec h.m h.mi
  obtain ⟨m2, b1, b2, b3⟩ := Mapper.step_spec a2 (i := stop) (by omega)
  refine ⟨_, m1, _, m2, a1, b1, ?_, ?_⟩
  · rw [← zeros_flipMask_take, ← zeros_flipMask_take]
    have hl : zeros ((flipMask F).take stop) ≤ (keep (flipMask F) U).length := by
      rw [keep_length _ _ (by simp [hU])]
      conv => rhs; rw [← List.take_length (l := flipMask F)]
      exact zeros_mono_take _ (by simp [hU, hlen])
    rw [slice_spec _ (zeros_mono_take _ (by omega)) hl, keep_slice _ _ (by simp [hU]) _ _ (by omega)]
    have hzz : zeros ((F.take stop).drop beg) = 0 := by rw [zeros_take_drop _ (by omega), hz]; simp
    have hfl : ((flipMask F).take stop).drop beg = flipMask ((F.take stop).drop beg) := by
      simp [flipMask, List.map_take, List.map_drop]
    have hall := all_zero_of_zeros (cs := ((flipMask F).take stop).drop beg) (by
      rw [hfl, zeros_flip, hzz]; simp)
    rw [hall, keep_zeros_of_length _ _ (by simp [hU])]
  · refine ⟨hold, fun j hj => ?_, b2, Nat.le_of_eq b3, ?_⟩
    · rw [h.x j (by omega)]; exact (hx j (by omega)).symm
    · rw [hz]
      refine h.wf.pushInsert _ ?_
      intro hnil
      have := congrArg List.length hnil
      rw [take_drop_length _ hlen] at this
      simp at this; omega

theorem fill_spec (hU : F.length = U.length) (e : Nat) (he : e ≤ U.length) :
    ∀ (fuel beg : Nat) (st : Delta.SynthState α), SynthInv F beg st → beg ≤ e → e - beg ≤ fuel →
    ∃ st', Delta.fill (keep (flipMask F) U) e fuel beg st = some st' ∧ SynthInv F e st' ∧
      elsText (keep F U) st'.els = elsText (keep F U) st.els ++ (U.take e).drop beg ∧
      elsMask st'.els = elsMask st.els ++ ((ones F).take e).drop beg := by
  intro fuel
  induction fuel with
  | zero =>
    intro beg st h hbe hf
    have : beg = e := by omega
    subst this
    refine ⟨st, by simp [Delta.fill], h, ?_⟩
    simp [List.drop_take]
  | succ fuel ih =>
    intro beg st h hbe hf
    simp only [Delta.fill]
    by_cases hlt : beg < e
    · simp only [if_pos hlt]
      obtain ⟨lo, hlo⟩ := h.old
      obtain ⟨lo', g1, g2, g3⟩ := skipOld_spec beg st.old st.x lo hlo
      generalize Delta.skipOld beg st.x st.old = p at g1 g2 g3
      obtain ⟨x, old⟩ := p
      simp only at g1 g2 g3 ⊢
      cases old with
      | nil =>
        have hz : zeros (F.take e) = zeros (F.take beg) := by
          rw [h.x e (by omega), h.x beg (by omega), ← g2 e (by omega), ← g2 beg (by omega)]
          simp [rangesCount]
        obtain ⟨i1, m1, i2, m2, q1, q2, q3, q4⟩ := synth_insert_step hU h hlt he hz ⟨lo', g1⟩ g2
        obtain ⟨st', r1, r2, r3, r4⟩ := ih e _ q4 (by omega) (by omega)
        refine ⟨st', ?_, r2, ?_, ?_⟩
        · simp [q1, q2, q3, r1]
        · rw [r3]; simp
        · rw [r4, elsMask_append, elsMask_insert, take_drop_length _ (by omega),
            ones_slice_one (by omega) (by omega) hz]
          simp [List.drop_take]
      | cons r rest =>
        obtain ⟨ib, ie⟩ := r
        simp only [List.head?_cons, Option.mem_def, Option.some.injEq, forall_eq'] at g3
        by_cases hib : ib ≤ beg
        · simp only [if_pos hib]
          have hstop : beg < min e ie := by omega
          have hz : ∀ j, beg ≤ j → j ≤ ie → zeros (F.take j) = j + x - ib := by
            intro j h1 h2
            rw [h.x j h1, ← g2 j h1]
            have hr : rangesCount rest j = 0 := rangesCount_zero g1.2.2 h2
            simp only [rangesCount, List.map_cons, List.sum_cons] at hr ⊢
            omega
          have hzb := hz beg (by omega) (by omega)
          have hze := hz (min e ie) (by omega) (by omega)
          rw [← hzb, ← hze]
          have hzl : zeros (F.take beg) < zeros (F.take (min e ie)) := by omega
          have hkl : zeros (F.take (min e ie)) ≤ (keep F U).length := by
            rw [keep_length _ _ hU]
            conv => rhs; rw [← List.take_length (l := F)]
            exact zeros_mono_take _ (by omega)
          have hinv : SynthInv F (min e ie) { st with
              els := Delta.pushCopy (zeros (F.take beg)) (zeros (F.take (min e ie))) st.els,
              x := x, old := (ib, ie) :: rest } := by
            refine ⟨⟨lo', g1⟩, fun j hj => ?_, h.m, ?_, ?_⟩
            · rw [h.x j (by omega)]; exact (g2 j (by omega)).symm
            · have := h.mi; show st.m.lastI ≤ _; omega
            · exact h.wf.pushCopy _ hzl
          obtain ⟨st', r1, r2, r3, r4⟩ := ih (min e ie) _ hinv (by omega) (by omega)
          refine ⟨st', r1, r2, ?_, ?_⟩
          rotate_left
          · rw [r4, elsMask_pushCopy _ h.wf (by omega),
              show zeros (F.take (min e ie)) - zeros (F.take beg) = min e ie - beg by omega,
              ← ones_slice_zero (a := beg) (b := min e ie) (F := F) (by omega) (by omega) (by omega), List.append_assoc,
              ← take_drop_split _ (by omega) (by omega)]
          rw [r3, elsText_pushCopy _ _ h.wf (by omega), List.append_assoc]
          congr 1
          rw [keep_slice _ _ hU _ _ (by omega)]
          have hl2 : ((F.take (min e ie)).drop beg).length = min e ie - beg :=
            take_drop_length _ (by omega)
          have hall := all_zero_of_zeros (cs := (F.take (min e ie)).drop beg) (by
            rw [zeros_take_drop _ (by omega), hl2]; omega)
          rw [hall, keep_zeros_of_length _ _ (by rw [hl2, take_drop_length _ (by omega)])]
          exact (take_drop_split _ (by omega) (by omega)).symm
        · simp only [if_neg hib]
          have hz : zeros (F.take (min e ib)) = zeros (F.take beg) := by
            rw [h.x _ (by omega), h.x beg (by omega), ← g2 _ (by omega), ← g2 beg (by omega)]
            have hr : RangesFrom ib ((ib, ie) :: rest) := ⟨Nat.le_refl _, g1.2.1, g1.2.2⟩
            rw [rangesCount_zero hr (by omega), rangesCount_zero hr (by omega)]
          obtain ⟨i1, m1, i2, m2, q1, q2, q3, q4⟩ :=
            synth_insert_step hU h (stop := min e ib) (by omega) (by omega) hz ⟨lo', g1⟩ g2
          obtain ⟨st', r1, r2, r3, r4⟩ := ih (min e ib) _ q4 (by omega) (by omega)
          refine ⟨st', ?_, r2, ?_, ?_⟩
          · simp [q1, q2, q3, r1]
          · rw [r3]
            simp only [elsText_append, elsText_insert, elsText_nil, List.append_nil, List.append_assoc]
            rw [← take_drop_split _ (by omega) (by omega)]
          · rw [r4, elsMask_append, elsMask_insert, take_drop_length _ (by omega),
              ← ones_slice_one (a := beg) (b := min e ib) (F := F) (by omega) (by omega) hz]
            simp only [elsMask_nil, List.append_nil, List.append_assoc]
            rw [← take_drop_split _ (by omega) (by omega)]
    · simp only [if_neg hlt]
      have : beg = e := by omega
      subst this
      exact ⟨st, rfl, h, by simp, by simp [List.drop_take]⟩

theorem rangeGo_le (m : CountMatcher) (segs : List Segment) (pos : Nat) :
    ∀ r ∈ Subset.rangeGo m segs pos, r.2 ≤ pos + (segCounts segs).length := by
  induction segs generalizing pos with
  | nil => simp [Subset.rangeGo]
  | cons s rest ih =>
    intro r hr
    simp only [Subset.rangeGo] at hr
    simp only [segCounts_cons, List.length_append, List.length_replicate]
    split at hr
    · rcases List.mem_cons.1 hr with rfl | hr
      · simp
      · have := ih _ r hr; omega
    · have := ih _ r hr; omega

theorem deleteFold_spec (U : List α) : ∀ (rs : List (Nat × Nat)) (lo : Nat), RangesFrom lo rs →
    (∀ r ∈ rs, r.2 ≤ U.length) → ∀ acc : List α,
    rs.foldlM (fun acc r => do return acc ++ (← slice U r.1 r.2)) acc =
      some (acc ++ rs.flatMap (fun r => (U.take r.2).drop r.1)) := by
  intro rs
  induction rs with
  | nil => intro lo _ _ acc; simp
  | cons r rest ih =>
    intro lo h hle acc
    have := ih _ h.2.2 (fun r hr => hle r (by simp [hr]))
    simp only [List.foldlM_cons, slice_spec U h.2.1 (hle r (by simp)), Option.bind_eq_bind,
      Option.bind_some, Option.pure_def] at this ⊢
    rw [this]; simp

theorem synthFold_spec (hU : F.length = U.length) : ∀ (rs : List (Nat × Nat)) (lo : Nat), RangesFrom lo rs →
    (∀ r ∈ rs, r.2 ≤ U.length) → lo ≤ U.length → ∀ st : Delta.SynthState α, SynthInv F lo st →
    ∃ st', rs.foldlM (fun st (r : Nat × Nat) => Delta.fill (keep (flipMask F) U) r.2 (r.2 - r.1) r.1 st) st = some st' ∧
      SynthInv F U.length st' ∧
      elsText (keep F U) st'.els = elsText (keep F U) st.els ++ rs.flatMap (fun r => (U.take r.2).drop r.1) ∧
      elsMask st'.els = elsMask st.els ++ rs.flatMap (fun r => ((ones F).take r.2).drop r.1) := by
  intro rs
  induction rs with
  | nil => intro lo _ _ hlo st h; exact ⟨st, rfl, h.mono hlo, by simp, by simp⟩
  | cons r rest ih =>
    intro lo h hle hlo st hst
    obtain ⟨st1, a1, a2, a3, a4⟩ := fill_spec hU r.2 (hle r (by simp)) (r.2 - r.1) r.1 st (hst.mono h.1) h.2.1
      (Nat.le_refl _)
    obtain ⟨st2, b1, b2, b3, b4⟩ := ih _ h.2.2 (fun r hr => hle r (by simp [hr])) (hle r (by simp)) st1 a2
    exact ⟨st2, by simp [a1, b1], b2, by rw [b3, a3]; simp, by rw [b4, a4]; simp⟩

/-- `synthesize` never fails on subsets of equal length and the tombstones of
the first one; the delta is well formed and turns the text without the first
deletions into the text without the second, inserting what the first deletes. -/
theorem Delta.synthesize_mask (f t : Subset) (U : List α) (hf : f.counts.length = U.length)
    (ht : t.counts.length = U.length) :
    ∃ d, Delta.synthesize (keep (flipMask f.counts) U) f t = some d ∧ d.WF ∧
      d.baseLen = (keep f.counts U).length ∧ d.result (keep f.counts U) = keep t.counts U ∧
      elsMask d.els = keep t.counts (ones f.counts) := by
  have h0 : SynthInv f.counts 0 (⟨[], 0, f.rangeIter .zero, f.mapper .nonZero⟩ : Delta.SynthState α) := by
    refine ⟨⟨0, rangesFrom_rangeGo _ _ _⟩, fun j _ => ?_, Mapper.inv_init _ _, Nat.le_refl _, Nat.zero_le _⟩
    rw [Subset.rangeIter, rangesCount_rangeGo]
    simp [Subset.counts, zeros]
    rfl
  have hle : ∀ r ∈ t.rangeIter .zero, r.2 ≤ U.length := by
    intro r hr
    have := rangeGo_le _ _ _ r hr
    rw [← ht]; simpa [Subset.counts] using this
  obtain ⟨st, a1, a2, a3, a4⟩ := synthFold_spec hf _ 0 (rangesFrom_rangeGo .zero t.segments 0) hle (by omega) _ h0
  refine ⟨⟨st.els, f.lenAfterDelete⟩, ?_, ?_, ?_, ?_, ?_⟩
  · simp only [Delta.synthesize, Subset.rangeIter] at a1 ⊢
    rw [a1]; rfl
  · have := a2.wf
    rw [← hf, List.take_length, ← Subset.lenAfterDelete_spec] at this
    exact this
  · rw [keep_length _ _ hf]; exact Subset.lenAfterDelete_spec f
  · have h1 := Subset.deleteFrom_spec t U ht
    have h2 := deleteFold_spec U (t.rangeIter .zero) 0 (rangesFrom_rangeGo _ _ _) hle []
    rw [Subset.deleteFrom, h2] at h1
    simp only [Delta.result, a3]
    simpa [Subset.rangeIter] using h1
  · have hlo : (ones f.counts).length = U.length := by simp [ones, hf]
    have h1 := Subset.deleteFrom_spec t (ones f.counts) (by rw [hlo, ht])
    have h2 := deleteFold_spec (ones f.counts) (t.rangeIter .zero) 0 (rangesFrom_rangeGo _ _ _)
      (by rw [hlo]; exact hle) []
    rw [Subset.deleteFrom, h2] at h1
    simp only [a4]
    simpa [Subset.rangeIter] using h1

theorem Delta.synthesize_spec (f t : Subset) (U : List α) (hf : f.counts.length = U.length)
    (ht : t.counts.length = U.length) :
    ∃ d, Delta.synthesize (keep (flipMask f.counts) U) f t = some d ∧ d.WF ∧
      d.baseLen = (keep f.counts U).length ∧ d.result (keep f.counts U) = keep t.counts U := by
  obtain ⟨d, h1, h2, h3, h4, _⟩ := Delta.synthesize_mask f t U hf ht
  exact ⟨d, h1, h2, h3, h4⟩

end Xi
