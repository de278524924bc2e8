import Verif.Rope.SynthLemmas
import Verif.Rope.RebaseMask

/-! # Lemmas about `InsertDelta::transform_shrink` and `transform_expand` -/

namespace Xi

variable {α : Type}

/-! ### transform_shrink -/

theorem shrinkFold_spec (X : List Nat) : ∀ (els out : List (DeltaElement α)) (m : Mapper) (lo : Nat),
    Contig lo X.length els → m.Inv X .zero → m.lastI ≤ lo →
    ∃ els' m', els.foldlM InsertDelta.shrinkStep (out, m) = some (out ++ els', m') ∧
      Contig (zeros (X.take lo)) (zeros X) els' ∧ elsIns els' = elsIns els ∧
      elsMask els' = keep (expandMask (elsMask els) (X.drop lo)) (elsMask els) := by
  intro els
  induction els with
  | nil =>
    intro out m lo h _ _
    have : lo = X.length := h
    subst this
    exact ⟨[], m, by simp, by simp [Contig], rfl, by simp⟩
  | cons el els ih =>
    intro out m lo h hm hl
    cases el with
    | copy b e =>
      obtain ⟨rfl, h2, h3⟩ := h
      have hle := h3.le
      obtain ⟨m1, a1, a2, a3⟩ := Mapper.step_spec hm hl
      obtain ⟨m2, b1, b2, b3⟩ := Mapper.step_spec a2 (i := e) (by omega)
      obtain ⟨els', m', c1, c2, c3, c4⟩ := ih
        (out ++ [.copy (zeros (X.take b)) (zeros (X.take e))]) m2 e h3 b2 (by omega)
      have ez : ∀ j, (X.take j).countP CountMatcher.zero.matchesCount = zeros (X.take j) := fun _ => rfl
      refine ⟨.copy (zeros (X.take b)) (zeros (X.take e)) :: els', m', ?_, ⟨rfl, zeros_mono_take _ h2, c2⟩,
        by simpa using c3, ?_⟩
      · simp only [List.foldlM_cons, InsertDelta.shrinkStep, a1, b1, ez, Option.bind_eq_bind, Option.bind_some,
          Option.pure_def]
        rw [c1]; simp
      · have hd : X.drop b = (X.take e).drop b ++ X.drop e := (take_drop_take X h2).symm
        have hl2 : ((X.take e).drop b).length = e - b := take_drop_length _ hle
        rw [elsMask_copy, elsMask_copy, c4, hd, expandMask_append _ _ _ _ (by simp [hl2]),
          expandMask_zeros _ _ hl2, keep_append _ _ _ _ (by simp [hl2])]
        congr 1
        rw [← zeros_take_drop X h2, ← hl2]
        generalize (X.take e).drop b = Y
        clear hd hl2 c4
        induction Y with
        | nil => simp
        | cons y Y ih => cases y <;> simp [List.replicate_succ, ih]
    | insert s =>
      obtain ⟨els', m', c1, c2, c3, c4⟩ := ih (out ++ [.insert s]) m lo h hm hl
      refine ⟨.insert s :: els', m', ?_, c2, by simp [c3], ?_⟩
      · simp only [List.foldlM_cons, InsertDelta.shrinkStep, Option.bind_eq_bind, Option.bind_some]
        rw [c1]; simp
      · have x := expandMask_append (List.replicate s.length 1) (elsMask els) [] (X.drop lo)
          (by simp [zeros_replicate_ne])
        rw [List.nil_append] at x
        rw [elsMask_insert, elsMask_insert, c4, x, keep_append _ _ _ _ (by simp), expandMask_replicate_one,
          keep_zeros_of_length _ _ (by simp)]

theorem InsertDelta.transformShrink_spec {d : InsertDelta α} {I s} (X : Subset)
    (h : d.Denotes X.counts.length I s) :
    ∃ d', d.transformShrink X = some d' ∧
      d'.Denotes (zeros X.counts) (keep (expandMask I X.counts) I) s := by
  obtain ⟨els', m', a1, a2, a3, a4⟩ := shrinkFold_spec X.counts d.d.els [] (X.mapper .zero) 0 h.contig
    (Mapper.inv_init _ _) (Nat.le_refl _)
  refine ⟨⟨⟨els', X.lenAfterDelete⟩⟩, by simp [InsertDelta.transformShrink, a1], ?_⟩
  refine ⟨Subset.lenAfterDelete_spec X, by simpa using a2, ?_, by rw [a3, h.ins]⟩
  rw [a4, h.mask]; simp

/-! ### transform_expand -/

/-- The copies cover `[x, hi)`, the first one possibly starting before `x`. -/
def ContigX (x hi : Nat) : List (DeltaElement α) → Prop
  | [] => x = hi
  | .copy b e :: rest => b ≤ x ∧ x < e ∧ Contig e hi rest
  | .insert _ :: rest => ContigX x hi rest

/-- Mask of what is left when `x` elements of the base are consumed. -/
def remMask (x : Nat) : List (DeltaElement α) → List Nat
  | [] => []
  | .copy _ e :: rest => List.replicate (e - x) 0 ++ elsMask rest
  | .insert s :: rest => List.replicate s.length 1 ++ remMask x rest

theorem contigX_of_contig {x hi} : ∀ {els : List (DeltaElement α)}, Contig x hi els →
    (∀ el ∈ els, PosEl el) → ContigX x hi els ∧ remMask x els = elsMask els := by
  intro els
  induction els with
  | nil => intro h _; exact ⟨h, rfl⟩
  | cons el els ih =>
    intro h hp
    cases el with
    | copy b e =>
      obtain ⟨rfl, h2, h3⟩ := h
      have : b < e := hp (.copy b e) (by simp)
      exact ⟨⟨Nat.le_refl _, this, h3⟩, by simp [remMask]⟩
    | insert s =>
      have := ih h (fun el hel => hp el (by simp [hel]))
      exact ⟨this.1, by simp [remMask, this.2]⟩

theorem ContigX.zeros {x hi} : ∀ {els : List (DeltaElement α)}, ContigX x hi els →
    x ≤ hi ∧ Xi.zeros (remMask x els) = hi - x := by
  intro els
  induction els with
  | nil => intro h; cases h; simp [remMask]
  | cons el els ih =>
    intro h
    cases el with
    | copy b e =>
      obtain ⟨h1, h2, h3⟩ := h
      have := h3.le
      simp [remMask, h3.zeros]; omega
    | insert s => have := ih h; simp [remMask, this.2, zeros_replicate_ne, this.1]

/-- State of `transform_expand` between loop iterations. -/
structure ExpInv (after : Bool) (X J : List Nat) (s : List α) (out els : List (DeltaElement α))
    (x y b1 : Nat) (xf : List (Nat × Nat)) : Prop where
  contig : Contig 0 b1 out
  opos : ∀ el ∈ out, PosEl el
  b1y : b1 ≤ y
  yl : y ≤ X.length
  elc : ContigX x (zeros X) els
  epos : ∀ el ∈ els, PosEl el
  xz : zeros (X.take y) = x
  xfk : ∃ k, ∀ j, y ≤ j → zeros (X.take j) = k + rangesCount xf j
  xfl : ∃ lo, RangesFrom lo xf
  xfr : ∀ r ∈ xf, y < r.2 ∧ r.1 < r.2 ∧ r.2 ≤ X.length
  mask : elsMask out ++ List.replicate (y - b1) 0 ++ rebaseMask after (remMask x els) (X.drop y) = J
  ins : elsIns out ++ elsIns els = s

variable {after : Bool} {X J : List Nat} {s : List α} {out els : List (DeltaElement α)}
  {x y b1 : Nat} {xf : List (Nat × Nat)}

namespace ExpInv

theorem zeros_drop (h : ExpInv after X J s out els x y b1 xf) :
    zeros (X.drop y) = zeros X - x := by
  have := congrArg zeros (List.take_append_drop y X)
  rw [zeros_append, h.xz] at this
  omega

/-- Before the next unmarked range everything is marked. -/
theorem gap (h : ExpInv after X J s out els x y b1 xf) {j : Nat} (h1 : y ≤ j)
    (h2 : j ≤ InsertDelta.nextIvBeg X.length xf) : zeros (X.take j) = x ∧ j ≤ X.length ∧
      ∃ M, X.drop y = M ++ X.drop j ∧ M.length = j - y ∧ ∀ c ∈ M, c ≠ 0 := by
  obtain ⟨k, hk⟩ := h.xfk
  obtain ⟨lo, hlo⟩ := h.xfl
  have hz : zeros (X.take j) = x ∧ j ≤ X.length := by
    rw [← h.xz, hk j h1, hk y (Nat.le_refl _)]
    cases xf with
    | nil => simp [rangesCount, InsertDelta.nextIvBeg] at h2 ⊢; exact h2
    | cons r rest =>
      have hr : RangesFrom r.1 (r :: rest) := ⟨Nat.le_refl _, hlo.2.1, hlo.2.2⟩
      have := h.xfr r (by simp)
      simp only [InsertDelta.nextIvBeg] at h2
      rw [rangesCount_zero hr h2, rangesCount_zero hr (by omega)]
      exact ⟨rfl, by omega⟩
  refine ⟨hz.1, hz.2, (X.take j).drop y, (take_drop_take X h1).symm, take_drop_length _ hz.2, ?_⟩
  have h0 : zeros ((X.take j).drop y) = 0 := by rw [zeros_take_drop _ h1, hz.1, h.xz]; simp
  intro c hc hc0
  have := List.countP_eq_zero.1 h0 c hc
  simp [hc0] at this

/-- Skip the marked positions up to the next unmarked range. -/
theorem skip (h : ExpInv after X J s out els x y b1 xf) (hy : y < InsertDelta.nextIvBeg X.length xf)
    (hs : after = true ∨ ∀ i ∈ (remMask x els).head?, i = 0) :
    ExpInv after X J s out els x (InsertDelta.nextIvBeg X.length xf) b1 xf := by
  obtain ⟨g1, g2, M, g3, g4, g5⟩ := h.gap (Nat.le_of_lt hy) (Nat.le_refl _)
  obtain ⟨k, hk⟩ := h.xfk
  refine ⟨h.contig, h.opos, by have := h.b1y; omega, g2, h.elc, h.epos, g1,
    ⟨k, fun j hj => hk j (by omega)⟩, h.xfl, ?_, ?_, h.ins⟩
  · intro r hr
    refine ⟨?_, (h.xfr r hr).2⟩
    obtain ⟨lo, hlo⟩ := h.xfl
    cases xf with
    | nil => simp at hr
    | cons r0 rest =>
      have h0 := h.xfr r0 (by simp)
      simp only [InsertDelta.nextIvBeg]
      rcases List.mem_cons.1 hr with rfl | hr
      · exact h0.2.1
      · -- later ranges start after the first one ends
        have gen : ∀ (rs : List (Nat × Nat)) lo, RangesFrom lo rs → ∀ r ∈ rs, lo ≤ r.1 := by
          intro rs
          induction rs with
          | nil => intro _ _ _ hr; simp at hr
          | cons a rs ih =>
            intro lo hrf r hr
            rcases List.mem_cons.1 hr with rfl | hr
            · exact hrf.1
            · have := ih _ hrf.2.2 r hr
              have := hrf.1; have := hrf.2.1; omega
        have := gen _ _ hlo.2.2 r hr
        have := h.xfr r (by simp [hr])
        omega
  · rw [← h.mask, g3, rebaseMask_marked _ _ _ g5 hs, g4]
    have : InsertDelta.nextIvBeg X.length xf - b1 = (y - b1) + (InsertDelta.nextIvBeg X.length xf - y) := by have := h.b1y; omega
    rw [this, ← List.replicate_append_replicate]
    simp only [List.append_assoc]

/-- Emit an insertion. -/
theorem insert {t : List α} {rest} (h : ExpInv after X J s out (.insert t :: rest) x y b1 xf)
    (hs : after = true → InsertDelta.nextIvBeg X.length xf ≤ y) :
    ExpInv after X J s ((if y > b1 then out ++ [.copy b1 y] else out) ++ [.insert t]) rest x y y xf := by
  have hb := h.b1y
  have ht : t ≠ [] := h.epos (.insert t) (by simp)
  have hins : Contig 0 y (if y > b1 then out ++ [DeltaElement.copy b1 y] else out) ∧
      elsMask (if y > b1 then out ++ [DeltaElement.copy b1 y] else out) = elsMask out ++ List.replicate (y - b1) 0 ∧
      elsIns (if y > b1 then out ++ [DeltaElement.copy b1 y] else out) = elsIns out ∧
      (∀ el ∈ (if y > b1 then out ++ [DeltaElement.copy b1 y] else out), PosEl el) := by
    by_cases hlt : y > b1
    · simp only [if_pos hlt]
      refine ⟨h.contig.append (contig_copy (by omega)), by simp, by simp, ?_⟩
      intro el hel
      rcases List.mem_append.1 hel with hel | hel
      · exact h.opos el hel
      · simp at hel; subst hel; exact hlt
    · simp only [if_neg hlt]
      have : b1 = y := by omega
      exact ⟨this ▸ h.contig, by rw [this]; simp, trivial, h.opos⟩
  obtain ⟨c1, c2, c3, c4⟩ := hins
  refine ⟨c1.append (by simp [Contig]), ?_, Nat.le_refl _, h.yl, h.elc, fun el hel => h.epos el (by simp [hel]),
    h.xz, h.xfk, h.xfl, h.xfr, ?_, ?_⟩
  · intro el hel
    rcases List.mem_append.1 hel with hel | hel
    · exact c4 el hel
    · simp at hel; subst hel; exact ht
  · have hhead : after = true → ∀ c ∈ (X.drop y).head?, c = 0 := by
      intro ha c hc
      have hnib := hs ha
      obtain ⟨k, hk⟩ := h.xfk
      cases xf with
      | nil =>
        simp only [InsertDelta.nextIvBeg] at hnib
        rw [List.drop_of_length_le hnib] at hc
        simp at hc
      | cons r rest =>
        have hr := h.xfr r (by simp)
        simp only [InsertDelta.nextIvBeg] at hnib
        obtain ⟨lo, hlo⟩ := h.xfl
        have e1 := hk y (Nat.le_refl _)
        have e2 := hk (y + 1) (by omega)
        have z1 := rangesCount_zero hlo.2.2 (j := y) (by omega)
        have z2 := rangesCount_zero hlo.2.2 (j := y + 1) (by omega)
        simp only [rangesCount, List.map_cons, List.sum_cons] at e1 e2 z1 z2
        have e3 : zeros (X.take (y + 1)) = zeros (X.take y) + 1 := by omega
        rw [List.take_add_one, zeros_append] at e3
        rw [List.head?_drop] at hc
        rw [Option.mem_def.1 hc] at e3
        by_cases hc0 : c = 0
        · exact hc0
        · simp [zeros_cons_ne hc0] at e3
    rw [← h.mask]
    simp only [elsMask_append, c2, elsMask_insert, elsMask_nil, remMask, List.append_nil, Nat.sub_self,
      List.replicate_zero]
    rw [rebaseMask_ones _ _ _ hhead]
    simp only [List.append_assoc]
  · rw [← h.ins]; simp [c3]

/-- Consume unmarked positions from both sides. -/
theorem copy {b e : Nat} {rest} (h : ExpInv after X J s out (.copy b e :: rest) x y b1 xf)
    (hs : InsertDelta.nextIvBeg X.length xf ≤ y) :
    ∃ xb xe xr, xf = (xb, xe) :: xr ∧ x ≤ e + y ∧ y < min (e + y - x) xe ∧
      ExpInv after X J s out
        (if x + (min (e + y - x) xe - y) = e then rest else .copy b e :: rest)
        (x + (min (e + y - x) xe - y)) (min (e + y - x) xe) b1
        (if min (e + y - x) xe = xe then xr else (xb, xe) :: xr) := by
  obtain ⟨e1, e2, e3⟩ := h.elc
  have hzd := h.zeros_drop
  have hle := e3.le
  obtain ⟨k, hk⟩ := h.xfk
  obtain ⟨lo, hlo⟩ := h.xfl
  cases xf with
  | nil =>
    exfalso
    simp only [InsertDelta.nextIvBeg] at hs
    rw [List.drop_of_length_le hs] at hzd
    simp at hzd
    omega
  | cons r xr =>
    obtain ⟨xb, xe⟩ := r
    simp only [InsertDelta.nextIvBeg] at hs
    have hr := h.xfr (xb, xe) (by simp)
    simp only at hr
    have hb1 := h.b1y
    have hlo3 : RangesFrom xe xr := hlo.2.2
    refine ⟨xb, xe, xr, rfl, by omega, by omega, ?_⟩
    generalize hw : min (e + y - x) xe = w
    have hw1 : y < w := by omega
    have hw2 : w ≤ xe := by omega
    have hw3 : x + (w - y) ≤ e := by omega
    have hzt : ∀ j, y ≤ j → j ≤ xe → zeros (X.take j) = x + (j - y) := by
      intro j h1 h2
      have a1 := hk y (Nat.le_refl _)
      have a2 := hk j h1
      have z1 := rangesCount_zero hlo3 (j := y) (by omega)
      have z2 := rangesCount_zero hlo3 (j := j) (by omega)
      simp only [rangesCount, List.map_cons, List.sum_cons] at a1 a2 z1 z2
      have := h.xz
      omega
    have hsplit : X.drop y = List.replicate (w - y) 0 ++ X.drop w := by
      rw [← take_drop_take X (Nat.le_of_lt hw1)]
      congr 1
      have hl := take_drop_length X (a := y) (b := w) (by omega)
      have := all_zero_of_zeros (cs := (X.take w).drop y) (by
        rw [zeros_take_drop _ (by omega), hzt w (by omega) hw2, hzt y (by omega) (by omega), hl]; omega)
      rw [this, hl]
    have hlater : ∀ r ∈ xr, xe ≤ r.1 := by
      have gen : ∀ (rs : List (Nat × Nat)) lo, RangesFrom lo rs → ∀ r ∈ rs, lo ≤ r.1 := by
        intro rs
        induction rs with
        | nil => intro _ _ _ hr; simp at hr
        | cons a rs ih =>
          intro lo hrf r hr
          rcases List.mem_cons.1 hr with rfl | hr
          · exact hrf.1
          · have := ih _ hrf.2.2 r hr
            have := hrf.1; have := hrf.2.1; omega
      exact gen _ _ hlo3
    refine ⟨h.contig, h.opos, by omega, by omega, ?_, ?_, hzt w (by omega) hw2, ?_, ?_, ?_, ?_, ?_⟩
    · split
      · rename_i he; rw [he]; exact (contigX_of_contig e3 (fun el hel => h.epos el (by simp [hel]))).1
      · exact ⟨by omega, by omega, e3⟩
    · split
      · exact fun el hel => h.epos el (by simp [hel])
      · exact h.epos
    · by_cases hc : w = xe
      · rw [if_pos hc]
        refine ⟨k + (xe - xb), fun j hj => ?_⟩
        rw [hk j (by omega)]
        simp only [rangesCount, List.map_cons, List.sum_cons]
        omega
      · rw [if_neg hc]
        exact ⟨k, fun j hj => hk j (by omega)⟩
    · split
      · exact ⟨xe, hlo3⟩
      · exact ⟨lo, hlo⟩
    · split
      · intro r hr
        have := hlater r hr
        have := h.xfr r (by simp [hr])
        omega
      · intro r hr
        rcases List.mem_cons.1 hr with rfl | hr
        · simp only; omega
        · have := hlater r hr
          have := h.xfr r (by simp [hr])
          omega
    · rw [← h.mask, hsplit]
      have hrm : remMask x (DeltaElement.copy b e :: rest) = List.replicate (w - y) 0 ++
          remMask (x + (w - y)) (if x + (w - y) = e then rest else .copy b e :: rest) := by
        split
        · rename_i he
          have hee : w - y = e - x := by omega
          rw [he, (contigX_of_contig e3 (fun el hel => h.epos el (by simp [hel]))).2]
          simp [remMask, hee]
        · simp only [remMask]
          rw [← List.append_assoc, List.replicate_append_replicate]
          congr 2; omega
      rw [hrm, rebaseMask_zeros]
      have : w - b1 = (y - b1) + (w - y) := by omega
      rw [this, ← List.replicate_append_replicate]
      simp only [List.append_assoc]
    · rw [← h.ins]
      split <;> simp

end ExpInv

/-- One run of the inner loop. -/
theorem expandInner_spec : ∀ (els out : List (DeltaElement α)) (b1 : Nat),
    ExpInv after X J s out els x y b1 xf → (after = true → InsertDelta.nextIvBeg X.length xf ≤ y) →
    ∃ st, InsertDelta.expandInner (InsertDelta.nextIvBeg X.length xf) x y xf out b1 els = some st ∧
      ExpInv after X J s st.out st.els st.x st.y st.b1 st.xf ∧
      ((st.els = [] ∧ st.y = y ∧ st.xf = xf) ∨
       (st.y = y ∧ y < InsertDelta.nextIvBeg X.length xf ∧ st.xf = xf ∧ ∀ i ∈ (remMask st.x st.els).head?, i = 0) ∨
       (InsertDelta.nextIvBeg X.length xf ≤ y ∧ y < st.y)) ∧ (els = [] → st.els = []) := by
  intro els
  induction els with
  | nil => intro out b1 h _; exact ⟨_, rfl, h, Or.inl ⟨rfl, rfl, rfl⟩, fun _ => rfl⟩
  | cons el els ih =>
    intro out b1 h hs
    cases el with
    | insert t =>
      obtain ⟨st, a1, a2, a3, a4⟩ := ih _ _ (h.insert hs) hs
      exact ⟨st, by simpa [InsertDelta.expandInner] using a1, a2, a3, by simp⟩
    | copy b e =>
      by_cases hy : y ≥ InsertDelta.nextIvBeg X.length xf
      · obtain ⟨xb, xe, xr, rfl, g1, g2, g3⟩ := h.copy hy
        refine ⟨⟨_, _, _, _, _, _⟩, ?_, g3, Or.inr (Or.inr ⟨hy, g2⟩), by simp⟩
        simp only [InsertDelta.expandInner]
        rw [if_pos hy, if_neg (by omega), if_neg (by omega)]
        rfl
      · refine ⟨_, by simp only [InsertDelta.expandInner]; rw [if_neg hy], h,
          Or.inr (Or.inl ⟨rfl, by omega, rfl, ?_⟩), by simp⟩
        have := h.elc.2.1
        obtain ⟨k, hk⟩ : ∃ k, e - x = k + 1 := ⟨e - x - 1, by omega⟩
        simp [remMask, hk, List.replicate_succ]

theorem expandOuter_spec : ∀ (fuel : Nat) (st : InsertDelta.ExpandState α),
    ExpInv after X J s st.out st.els st.x st.y st.b1 st.xf →
    (X.length - st.y) + (if st.els = [] then 0 else 1) ≤ fuel →
    ∃ st', InsertDelta.expandOuter X.length after fuel st = some st' ∧
      ExpInv after X J s st'.out st'.els st'.x st'.y st'.b1 st'.xf ∧ st'.els = [] ∧ st'.y = X.length := by
  intro fuel
  induction fuel with
  | zero =>
    intro st h hf
    have hyl := h.yl
    have hels : st.els = [] := by
      by_cases he : st.els = []
      · exact he
      · rw [if_neg he] at hf; omega
    refine ⟨st, ?_, h, hels, by omega⟩
    simp only [InsertDelta.expandOuter]
    rw [if_neg]
    rintro (hc | hc)
    · omega
    · exact hc hels
  | succ fuel ih =>
    intro st h hf
    have hyl := h.yl
    simp only [InsertDelta.expandOuter]
    by_cases hc : st.y < X.length ∨ st.els ≠ []
    · rw [if_pos hc]
      have hnl : InsertDelta.nextIvBeg X.length st.xf ≤ X.length := by
        cases hx : st.xf with
        | nil => exact Nat.le_refl _
        | cons r rest => have := h.xfr r (by simp [hx]); simp only [InsertDelta.nextIvBeg]; omega
      -- first skip
      have h1 : ExpInv after X J s st.out st.els st.x
          (if (after && decide (st.y < InsertDelta.nextIvBeg X.length st.xf)) = true then InsertDelta.nextIvBeg X.length st.xf else st.y) st.b1 st.xf := by
        split
        · rename_i hcond
          simp at hcond
          exact h.skip hcond.2 (Or.inl hcond.1)
        · exact h
      have hge : after = true → InsertDelta.nextIvBeg X.length st.xf ≤
          (if (after && decide (st.y < InsertDelta.nextIvBeg X.length st.xf)) = true then InsertDelta.nextIvBeg X.length st.xf else st.y) := by
        intro ha; split
        · exact Nat.le_refl _
        · rename_i hcond; simp [ha] at hcond; exact hcond
      have hy1 : (if (after && decide (st.y < InsertDelta.nextIvBeg X.length st.xf)) = true then InsertDelta.nextIvBeg X.length st.xf else st.y) = st.y ∨
          (st.y < (if (after && decide (st.y < InsertDelta.nextIvBeg X.length st.xf)) = true then InsertDelta.nextIvBeg X.length st.xf else st.y)) := by
        split
        · rename_i hcond; simp at hcond; exact Or.inr hcond.2
        · exact Or.inl rfl
      generalize (if (after && decide (st.y < InsertDelta.nextIvBeg X.length st.xf)) = true then InsertDelta.nextIvBeg X.length st.xf else st.y) = y1 at *
      obtain ⟨st1, a1, a2, a3, a4⟩ := expandInner_spec _ _ _ h1 hge
      rw [a1]
      simp only [Option.bind_eq_bind, Option.bind_some]
      -- second skip
      have h2 : ExpInv after X J s st1.out st1.els st1.x
          (if (!after && decide (st1.y < InsertDelta.nextIvBeg X.length st.xf)) = true then InsertDelta.nextIvBeg X.length st.xf else st1.y) st1.b1 st1.xf := by
        split
        · rename_i hcond
          simp at hcond
          rcases a3 with ⟨b1, b2, b3⟩ | ⟨b1, b2, b3, b4⟩ | ⟨b1, b2⟩
          · have := a2.skip (by rw [b3]; exact hcond.2) (Or.inr (by rw [b1]; simp [remMask]))
            rw [b3] at this ⊢; exact this
          · have := a2.skip (by rw [b3]; exact hcond.2) (Or.inr b4)
            rw [b3] at this ⊢; exact this
          · omega
        · exact a2
      refine ih _ h2 ?_
      -- the measure decreases
      show X.length - (if (!after && decide (st1.y < InsertDelta.nextIvBeg X.length st.xf)) = true then InsertDelta.nextIvBeg X.length st.xf else st1.y) +
        (if st1.els = [] then 0 else 1) ≤ fuel
      have hy2 := h2.yl
      have hind : (if st1.els = [] then 0 else 1) ≤ (if st.els = [] then 0 else 1) := by
        by_cases he : st.els = []
        · rw [if_pos (a4 he)]; exact Nat.zero_le _
        · rw [if_neg he]; split <;> omega
      by_cases hgrow : st.y < (if (!after && decide (st1.y < InsertDelta.nextIvBeg X.length st.xf)) = true then InsertDelta.nextIvBeg X.length st.xf else st1.y)
      · omega
      · -- no growth: everything was inserted
        have hst1y : st.y ≤ st1.y := by
          rcases a3 with ⟨b1, b2, b3⟩ | ⟨b1, b2, b3, b4⟩ | ⟨b1, b2⟩ <;> omega
        have hge1 : st1.y ≤ (if (!after && decide (st1.y < InsertDelta.nextIvBeg X.length st.xf)) = true then InsertDelta.nextIvBeg X.length st.xf else st1.y) := by
          split
          · rename_i hcond; simp at hcond; omega
          · exact Nat.le_refl _
        have hstill : st1.y = st.y := by omega
        have hy1s : y1 = st.y := by
          rcases a3 with ⟨b1, b2, b3⟩ | ⟨b1, b2, b3, b4⟩ | ⟨b1, b2⟩ <;> omega
        have hnn : InsertDelta.nextIvBeg X.length st.xf ≤ st.y := by
          cases ha : after with
          | true => have := hge ha; omega
          | false =>
            by_cases hlt : st1.y < InsertDelta.nextIvBeg X.length st.xf
            · simp [ha, hlt] at hgrow; omega
            · omega
        rcases a3 with ⟨b1, b2, b3⟩ | ⟨b1, b2, b3, b4⟩ | ⟨b1, b2⟩
        · -- all elements consumed
          have hz := a2.elc
          rw [b1] at hz
          have hzx : st1.x = zeros X := hz
          have hzd := a2.zeros_drop
          have hyl2 : st.y = X.length := by
            cases hx : st.xf with
            | nil => rw [hx] at hnn; simp only [InsertDelta.nextIvBeg] at hnn; omega
            | cons r rest =>
              exfalso
              obtain ⟨k, hk⟩ := h.xfk
              obtain ⟨lo, hlo⟩ := h.xfl
              have hr := h.xfr r (by simp [hx])
              rw [hx] at hnn hk hlo
              simp only [InsertDelta.nextIvBeg] at hnn
              have e1 := hk st.y (Nat.le_refl _)
              have e2 := hk r.2 (by omega)
              have z1 := rangesCount_zero hlo.2.2 (j := st.y) (by omega)
              have z2 := rangesCount_zero hlo.2.2 (j := r.2) (by omega)
              simp only [rangesCount, List.map_cons, List.sum_cons] at e1 e2 z1 z2
              have e3 := zeros_mono_take X (a := r.2) (b := X.length) (by omega)
              rw [List.take_length] at e3
              have e4 := a2.xz
              rw [hstill] at e4
              omega
          rw [if_pos b1]
          have hne : st.els ≠ [] := by
            rcases hc with hc | hc
            · omega
            · exact hc
          rw [if_neg hne] at hf
          omega
        · omega
        · omega
    · rw [if_neg hc]
      have h1 : ¬ st.y < X.length := fun h => hc (Or.inl h)
      have h2 : st.els = [] := by
        by_cases he : st.els = []
        · exact he
        · exact absurd (Or.inr he) hc
      exact ⟨st, rfl, h, h2, by omega⟩

theorem rangeGo_strict (m : CountMatcher) (segs : List Segment) (pos : Nat) (h : ∀ s ∈ segs, 0 < s.len) :
    ∀ r ∈ Subset.rangeGo m segs pos, r.1 < r.2 := by
  induction segs generalizing pos with
  | nil => simp [Subset.rangeGo]
  | cons s rest ih =>
    intro r hr
    have hs := h s (by simp)
    simp only [Subset.rangeGo] at hr
    split at hr
    · rcases List.mem_cons.1 hr with rfl | hr
      · simp; omega
      · exact ih _ (fun s hs => h s (by simp [hs])) r hr
    · exact ih _ (fun s hs => h s (by simp [hs])) r hr

/-- `transform_expand` moves an insertion to the text with `X`'s additions. -/
theorem InsertDelta.transformExpand_spec {d : InsertDelta α} {I s} (X : Subset) (hX : X.Normal)
    (h : d.Denotes (zeros X.counts) I s) (hp : d.Pos) (after : Bool) :
    ∃ d', d.transformExpand X after = some d' ∧
      d'.Denotes X.counts.length (rebaseMask after I X.counts) s ∧ d'.Pos := by
  have hl : X.count .all = X.counts.length := X.len_spec
  obtain ⟨c1, c2⟩ := contigX_of_contig h.contig hp
  have h0 : ExpInv after X.counts (rebaseMask after I X.counts) s [] d.d.els 0 0 0 (X.rangeIter .zero) := by
    refine ⟨by simp [Contig], by simp, Nat.le_refl _, Nat.zero_le _, c1, hp, by simp, ⟨0, fun j _ => ?_⟩,
      ⟨0, rangesFrom_rangeGo _ _ _⟩, ?_, ?_, ?_⟩
    · rw [Subset.rangeIter, rangesCount_rangeGo]; simp [Subset.counts, zeros]; rfl
    · intro r hr
      have a1 := rangeGo_strict _ _ _ hX.pos r hr
      have a2 := rangeGo_le _ _ _ r hr
      simp only [Subset.counts] at *
      omega
    · simp [c2, h.mask]
    · simp [h.ins]
  obtain ⟨st, a1, a2, a3, a4⟩ := expandOuter_spec (X.counts.length + 2)
    ⟨[], d.d.els, 0, 0, 0, X.rangeIter .zero⟩ h0 (by simp; split <;> omega)
  have hb := a2.b1y
  have hmask := a2.mask
  rw [a3, a4] at hmask
  simp [remMask, rebaseMask_nil] at hmask
  have hins := a2.ins
  rw [a3] at hins
  simp at hins
  refine ⟨⟨⟨if st.y > st.b1 then st.out ++ [.copy st.b1 st.y] else st.out, X.counts.length⟩⟩, ?_, ?_, ?_⟩
  · simp [InsertDelta.transformExpand, hl, a1]
  · by_cases hlt : st.y > st.b1
    · simp only [if_pos hlt]
      exact ⟨rfl, a4 ▸ a2.contig.append (contig_copy (by omega)), by simpa [a4] using hmask, by simpa using hins⟩
    · simp only [if_neg hlt]
      have : st.b1 = X.counts.length := by omega
      refine ⟨rfl, this ▸ a2.contig, ?_, hins⟩
      rw [this] at hmask; simpa using hmask
  · intro el hel
    by_cases hlt : st.y > st.b1
    · simp only [if_pos hlt] at hel
      rcases List.mem_append.1 hel with hel | hel
      · exact a2.opos el hel
      · simp at hel; subst hel; exact hlt
    · simp only [if_neg hlt] at hel
      exact a2.opos el hel

end Xi
