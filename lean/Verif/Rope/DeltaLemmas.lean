import Verif.Spec.Delta
import Verif.Rope.MapperLemmas

/-! # Lemmas about the delta model: apply, factor -/

namespace Xi

variable {α : Type}

/-! ### apply -/

/-- Copies are in range. -/
def InRange (n : Nat) : DeltaElement α → Prop
  | .copy b e => b ≤ e ∧ e ≤ n
  | .insert _ => True

theorem applyFold_spec (base : List α) (els : List (DeltaElement α))
    (h : ∀ el ∈ els, InRange base.length el) (acc : List α) :
    els.foldlM (Delta.applyEl base) acc = some (acc ++ elsText base els) := by
  induction els generalizing acc with
  | nil => simp [elsText]
  | cons el els ih =>
    have ih := ih (fun el hel => h el (by simp [hel]))
    have hel := h el (by simp)
    cases el with
    | copy b e =>
      have : slice base b e = some ((base.take e).drop b) := slice_spec base hel.1 hel.2
      simp [Delta.applyEl, this, ih, elsText]
    | insert s => simp [Delta.applyEl, ih, elsText]

theorem ElsWF.lo_le {n lo} {els : List (DeltaElement α)} (h : ElsWF n lo els) : lo ≤ n := by
  induction els generalizing lo with
  | nil => exact h
  | cons el els ih =>
    cases el with
    | copy b e => have := ih h.2.2; have := h.1; have := h.2.1; omega
    | insert s => exact ih h.2

theorem ElsWF.inRange {n lo} {els : List (DeltaElement α)} (h : ElsWF n lo els) :
    ∀ el ∈ els, InRange n el := by
  induction els generalizing lo with
  | nil => simp
  | cons el els ih =>
    intro el' hel
    cases el with
    | copy b e =>
      rcases List.mem_cons.1 hel with rfl | hel
      · exact ⟨by have := h.2.1; omega, h.2.2.lo_le⟩
      · exact ih h.2.2 _ hel
    | insert s =>
      rcases List.mem_cons.1 hel with rfl | hel
      · trivial
      · exact ih h.2 _ hel

theorem Delta.apply_spec (d : Delta α) (base : List α) (h : d.WF) (hl : base.length = d.baseLen) :
    d.apply base = some (d.result base) := by
  have := applyFold_spec base d.els (by rw [hl]; exact h.inRange) []
  simpa [Delta.apply, Delta.result] using this

/-! ### Insert deltas as (mask, text) -/

/-- All inserted text, in order. -/
def elsIns (els : List (DeltaElement α)) : List α :=
  els.flatMap fun
    | .copy _ _ => []
    | .insert s => s

@[simp] theorem elsMask_nil : elsMask ([] : List (DeltaElement α)) = [] := rfl
@[simp] theorem elsMask_copy (b e) (els : List (DeltaElement α)) :
    elsMask (.copy b e :: els) = List.replicate (e - b) 0 ++ elsMask els := by simp [elsMask]
@[simp] theorem elsMask_insert (s) (els : List (DeltaElement α)) :
    elsMask (.insert s :: els) = List.replicate s.length 1 ++ elsMask els := by simp [elsMask]
@[simp] theorem elsMask_append (a b : List (DeltaElement α)) : elsMask (a ++ b) = elsMask a ++ elsMask b := by
  simp [elsMask]
@[simp] theorem elsIns_nil : elsIns ([] : List (DeltaElement α)) = [] := rfl
@[simp] theorem elsIns_copy (b e) (els : List (DeltaElement α)) :
    elsIns (.copy b e :: els) = elsIns els := by simp [elsIns]
@[simp] theorem elsIns_insert (s) (els : List (DeltaElement α)) :
    elsIns (.insert s :: els) = s ++ elsIns els := by simp [elsIns]
@[simp] theorem elsIns_append (a b : List (DeltaElement α)) : elsIns (a ++ b) = elsIns a ++ elsIns b := by
  simp [elsIns]
@[simp] theorem elsText_nil (base : List α) : elsText base [] = [] := rfl
@[simp] theorem elsText_copy (base : List α) (b e) (els : List (DeltaElement α)) :
    elsText base (.copy b e :: els) = (base.take e).drop b ++ elsText base els := by simp [elsText]
@[simp] theorem elsText_insert (base : List α) (s) (els : List (DeltaElement α)) :
    elsText base (.insert s :: els) = s ++ elsText base els := by simp [elsText]
@[simp] theorem elsText_append (base : List α) (a b : List (DeltaElement α)) :
    elsText base (a ++ b) = elsText base a ++ elsText base b := by simp [elsText]

theorem Contig.le {lo hi} {els : List (DeltaElement α)} (h : Contig lo hi els) : lo ≤ hi := by
  induction els generalizing lo with
  | nil => exact Nat.le_of_eq h
  | cons el els ih =>
    cases el with
    | copy b e => have := ih h.2.2; have := h.1; have := h.2.1; omega
    | insert s => exact ih h

theorem Contig.append {lo mid hi} {a b : List (DeltaElement α)} (h1 : Contig lo mid a) (h2 : Contig mid hi b) :
    Contig lo hi (a ++ b) := by
  induction a generalizing lo with
  | nil => cases h1; exact h2
  | cons el els ih =>
    cases el with
    | copy b e => exact ⟨h1.1, h1.2.1, ih h1.2.2⟩
    | insert s => exact ih (lo := lo) h1

theorem contig_copy {b e : Nat} (h : b ≤ e) : Contig b e [(DeltaElement.copy b e : DeltaElement α)] := by
  simp [Contig, h]

theorem Contig.inRange {lo hi} {els : List (DeltaElement α)} (h : Contig lo hi els) :
    ∀ el ∈ els, InRange hi el := by
  induction els generalizing lo with
  | nil => simp
  | cons el els ih =>
    intro el' hel
    cases el with
    | copy b e =>
      rcases List.mem_cons.1 hel with rfl | hel
      · exact ⟨h.2.1, h.2.2.le⟩
      · exact ih h.2.2 _ hel
    | insert s =>
      rcases List.mem_cons.1 hel with rfl | hel
      · trivial
      · exact ih (lo := lo) h _ hel

theorem Contig.zeros {lo hi} {els : List (DeltaElement α)} (h : Contig lo hi els) :
    Xi.zeros (elsMask els) = hi - lo := by
  induction els generalizing lo with
  | nil => cases h; simp
  | cons el els ih =>
    cases el with
    | copy b e =>
      obtain ⟨rfl, h2, h3⟩ := h
      have := h3.le
      simp [ih h3]; omega
    | insert s => simp [ih (lo := lo) h, zeros_replicate_ne]

theorem elsIns_length {els : List (DeltaElement α)} :
    (elsIns els).length = (elsMask els).length - zeros (elsMask els) := by
  induction els with
  | nil => rfl
  | cons el els ih =>
    have := zeros_le_length (elsMask els)
    cases el with
    | copy b e => simp [ih]; omega
    | insert s => simp [ih, zeros_replicate_ne]; omega

theorem take_drop_take (xs : List α) {b e : Nat} (hbe : b ≤ e) :
    (xs.take e).drop b ++ xs.drop e = xs.drop b := by
  conv => rhs; rw [← List.take_append_drop e xs]
  rw [List.drop_append]
  by_cases h : b ≤ (xs.take e).length
  · have : b - (xs.take e).length = 0 := by omega
    rw [this, List.drop_zero]
  · have : e ≥ xs.length := by simp at h; omega
    simp [List.drop_of_length_le this]

/-- An insert delta weaves its text into the base. -/
theorem Contig.text {base : List α} : ∀ {lo} {els : List (DeltaElement α)}, Contig lo base.length els →
    elsText base els = weave (elsMask els) (base.drop lo) (elsIns els) := by
  intro lo els h
  induction els generalizing lo with
  | nil => cases h; simp
  | cons el els ih =>
    cases el with
    | copy b e =>
      obtain ⟨rfl, h2, h3⟩ := h
      have := h3.le
      have hl : ((base.take e).drop b).length = e - b := by simp; omega
      have : base.drop b = (base.take e).drop b ++ base.drop e := (take_drop_take base h2).symm
      rw [elsText_copy, elsMask_copy, elsIns_copy, this, ih h3]
      have := weave_append (List.replicate (e - b) 0) (elsMask els) ((base.take e).drop b) (base.drop e)
        [] (elsIns els) (by simp [hl]) (by simp)
      rw [List.nil_append] at this
      rw [this, weave_zeros _ _ _ hl]
    | insert s =>
      rw [elsText_insert, elsMask_insert, elsIns_insert, ih (lo := lo) h]
      have := weave_append (List.replicate s.length 1) (elsMask els) [] (base.drop lo)
        s (elsIns els) (by simp [zeros_replicate_ne]) (by simp [zeros_replicate_ne])
      rw [List.nil_append] at this
      rw [this, weave_ones _ _ _ rfl]

/-- Specification of an insert delta: applied to any text of length `n` it
weaves `s` in at the marked positions of `I`. -/
structure InsertDelta.Denotes (d : InsertDelta α) (n : Nat) (I : List Nat) (s : List α) : Prop where
  base : d.d.baseLen = n
  contig : Contig 0 n d.d.els
  mask : elsMask d.d.els = I
  ins : elsIns d.d.els = s

/-- No empty elements. -/
def InsertDelta.Pos (d : InsertDelta α) : Prop := ∀ el ∈ d.d.els, PosEl el

namespace InsertDelta.Denotes

variable {d : InsertDelta α} {n : Nat} {I : List Nat} {s : List α}

theorem zeros (h : d.Denotes n I s) : Xi.zeros I = n := by
  rw [← h.mask, h.contig.zeros]; rfl

theorem length (h : d.Denotes n I s) : s.length = I.length - n := by
  rw [← h.ins, elsIns_length, h.mask, h.zeros]

theorem apply (h : d.Denotes n I s) {base : List α} (hl : base.length = n) :
    d.apply base = some (weave I base s) := by
  have h1 := applyFold_spec base d.d.els (by rw [hl]; exact h.contig.inRange) []
  have h2 := h.contig
  rw [← hl] at h2
  rw [InsertDelta.apply, Delta.apply, h1, h2.text, h.mask, h.ins]
  simp

theorem insertedSubset (h : d.Denotes n I s) (hp : d.Pos) :
    ∃ r, d.insertedSubset = some r ∧ r.Normal ∧ r.counts = I := by
  obtain ⟨sb, h4, h5⟩ := SubsetBuilder.foldlM_push
    InsertDelta.insertedStep
    (fun | .copy b e => List.replicate (e - b) 0
         | .insert s => List.replicate s.length 1) d.d.els
    (fun sb cs z hz hok => by
      have := hp z hz
      cases z with
      | copy b e => exact hok.push (by simp only [PosEl] at this; omega) _
      | insert s => exact hok.push (List.length_pos_iff.2 this) _) _ _ SubsetBuilder.ok_new
  refine ⟨sb.build, by simp [InsertDelta.insertedSubset, h4], h5.normal, ?_⟩
  have := h5.counts
  rw [List.nil_append] at this
  rw [SubsetBuilder.build_counts, this, ← h.mask]
  rfl

theorem mask01 (h : d.Denotes n I s) : ∀ c ∈ I, c = 0 ∨ c = 1 := by
  rw [← h.mask]
  intro c hc
  simp only [elsMask, List.mem_flatMap] at hc
  obtain ⟨el, _, hel⟩ := hc
  cases el <;> simp [List.mem_replicate] at hel <;> omega

end InsertDelta.Denotes

/-! ### factor -/

/-- What the loop of `factor` has established after consuming a prefix whose
result so far is `acc`. -/
structure FactorInv (base acc : List α) (st : Delta.FactorState α) (I cs : List Nat) : Prop where
  contig : Contig 0 st.b1 st.ins
  pos : ∀ el ∈ st.ins, PosEl el
  b1e1 : st.b1 ≤ st.e1
  mask : I = elsMask st.ins ++ List.replicate (st.e1 - st.b1) 0
  sb : ∃ ds, st.sb.Ok ds ∧ ds.length ≤ st.e1 ∧ cs = ds ++ List.replicate (st.e1 - ds.length) 0
  text : acc = keep (expandMask I cs) (weave I (base.take st.e1) (elsIns st.ins))

theorem FactorInv.lengths {base acc : List α} {st I cs} (h : FactorInv base acc st I cs) :
    cs.length = st.e1 ∧ zeros I = st.e1 ∧ (elsIns st.ins).length = I.length - zeros I := by
  obtain ⟨ds, _, h2, h3⟩ := h.sb
  have h4 : zeros (elsMask st.ins) = st.b1 := by simpa using h.contig.zeros
  have := h.b1e1
  refine ⟨by rw [h3]; simp; omega, by rw [h.mask]; simp [h4]; omega, ?_⟩
  rw [elsIns_length, h.mask]; simp; omega

theorem factorStep_copy {base acc : List α} {st I cs} (h : FactorInv base acc st I cs)
    {b e : Nat} (hb : st.e1 ≤ b) (hbe : b < e) (he : e ≤ base.length) :
    ∃ st' , Delta.factorStep st (.copy b e) = some st' ∧ st'.e1 = e ∧
      ∃ I', FactorInv base (acc ++ (base.take e).drop b) st' I'
        (cs ++ List.replicate (b - st.e1) 1 ++ List.replicate (e - b) 0) := by
  obtain ⟨ds, h1, h2, h3⟩ := h.sb
  obtain ⟨l1, l2, l3⟩ := h.lengths
  have hb1 := h.b1e1
  obtain ⟨sb', g1, g2⟩ := h1.addRange h2 hb 1
  refine ⟨{ st with sb := sb', e1 := e }, by simp [Delta.factorStep, g1], rfl,
    I ++ List.replicate (e - st.e1) 0, ?_⟩
  constructor
  · exact h.contig
  · exact h.pos
  · show st.b1 ≤ e; omega
  · rw [h.mask, List.append_assoc, List.replicate_append_replicate]
    have : st.e1 - st.b1 + (e - st.e1) = e - st.b1 := by omega
    rw [this]
  · by_cases hbe1 : st.e1 = b
    · rw [if_pos hbe1] at g2
      refine ⟨ds, g2, by show _ ≤ e; omega, ?_⟩
      show _ = ds ++ List.replicate (e - ds.length) 0
      rw [h3, ← hbe1]
      simp [List.replicate_append_replicate]
      omega
    · rw [if_neg hbe1] at g2
      refine ⟨_, g2, by show _ ≤ e; simp; omega, ?_⟩
      rw [h3]
      simp
      omega
  · show acc ++ _ = keep _ (weave _ (base.take e) (elsIns st.ins))
    have e1 : base.take e = base.take st.e1 ++ ((base.take b).drop st.e1 ++ (base.take e).drop b) := by
      have a1 : base.take b = base.take st.e1 ++ (base.take b).drop st.e1 := by
        conv => lhs; rw [← List.take_append_drop st.e1 (base.take b)]
        rw [List.take_take, Nat.min_eq_left hb]
      have a2 : base.take e = base.take b ++ (base.take e).drop b := by
        conv => lhs; rw [← List.take_append_drop b (base.take e)]
        rw [List.take_take, Nat.min_eq_left (by omega)]
      rw [← List.append_assoc, ← a1, ← a2]
    have r : List.replicate (e - st.e1) 0 = List.replicate (b - st.e1) 0 ++ List.replicate (e - b) 0 := by
      rw [List.replicate_append_replicate]; congr 1; omega
    rw [r, List.append_assoc cs, expandMask_append _ _ _ _ (by omega)]
    rw [expandMask_append _ _ _ _ (by simp), expandMask_zeros _ _ (by simp), expandMask_zeros _ _ (by simp)]
    conv => rhs; rw [e1]
    have w := weave_append I (List.replicate (b - st.e1) 0 ++ List.replicate (e - b) 0)
      (base.take st.e1) ((base.take b).drop st.e1 ++ (base.take e).drop b) (elsIns st.ins) []
      (by simp; omega) l3
    rw [List.append_nil] at w
    rw [w]
    rw [List.replicate_append_replicate, weave_zeros _ _ _ (by simp; omega)]
    rw [keep_append _ _ _ _ (by simp; rw [weave_length _ _ _ (by simp; omega) l3])]
    rw [keep_append _ _ _ _ (by simp; omega)]
    rw [keep_replicate_ne (by simp), keep_zeros_of_length _ _ (by simp; omega), h.text]
    simp

theorem factorStep_insert {base acc : List α} {st I cs} (h : FactorInv base acc st I cs)
    {s : List α} (hs : s ≠ []) (he : st.e1 ≤ base.length) :
    ∃ st' , Delta.factorStep st (.insert s) = some st' ∧ st'.e1 = st.e1 ∧
      ∃ I', FactorInv base (acc ++ s) st' I' cs := by
  obtain ⟨l1, l2, l3⟩ := h.lengths
  have hb1 := h.b1e1
  refine ⟨_, rfl, rfl, I ++ List.replicate s.length 1, ?_⟩
  have hins : Contig 0 st.e1 (if st.e1 > st.b1 then st.ins ++ [DeltaElement.copy st.b1 st.e1] else st.ins) ∧
      elsMask (if st.e1 > st.b1 then st.ins ++ [DeltaElement.copy st.b1 st.e1] else st.ins) = I ∧
      elsIns (if st.e1 > st.b1 then st.ins ++ [DeltaElement.copy st.b1 st.e1] else st.ins) = elsIns st.ins ∧
      (∀ el ∈ (if st.e1 > st.b1 then st.ins ++ [DeltaElement.copy st.b1 st.e1] else st.ins), PosEl el) := by
    by_cases hlt : st.e1 > st.b1
    · simp only [if_pos hlt]
      refine ⟨h.contig.append (contig_copy (by omega)), by rw [h.mask]; simp, by simp, ?_⟩
      intro el hel
      rcases List.mem_append.1 hel with hel | hel
      · exact h.pos el hel
      · simp at hel; subst hel; exact hlt
    · simp only [if_neg hlt]
      have : st.b1 = st.e1 := by omega
      exact ⟨this ▸ h.contig, by rw [h.mask, this]; simp, trivial, h.pos⟩
  obtain ⟨c1, c2, c3, c4⟩ := hins
  constructor
  · exact c1.append (by simp [Contig])
  · intro el hel
    rcases List.mem_append.1 hel with hel | hel
    · exact c4 el hel
    · simp at hel; subst hel; exact hs
  · exact Nat.le_refl _
  · simp [c2]
  · exact h.sb
  · show acc ++ s = keep _ (weave _ (base.take st.e1) (elsIns (_ ++ [DeltaElement.insert s])))
    rw [elsIns_append, c3]
    have w := weave_append I (List.replicate s.length 1) (base.take st.e1) [] (elsIns st.ins) s
      (by simp; omega) l3
    rw [List.append_nil] at w
    simp only [elsIns_insert, elsIns_nil, List.append_nil]
    rw [w, weave_ones _ _ _ rfl]
    have x := expandMask_append I (List.replicate s.length 1) cs [] (by omega)
    rw [List.append_nil] at x
    rw [x, expandMask_replicate_one]
    rw [keep_append _ _ _ _ (by simp; rw [weave_length _ _ _ (by simp; omega) l3])]
    rw [keep_replicate_zero, ← h.text]

/-- Positions from `lo` on that no copy covers, marked. -/
def delMask (n : Nat) : Nat → List (DeltaElement α) → List Nat
  | lo, [] => List.replicate (n - lo) 1
  | lo, .copy b e :: rest => List.replicate (b - lo) 1 ++ List.replicate (e - b) 0 ++ delMask n e rest
  | lo, .insert _ :: rest => delMask n lo rest

theorem factorFold {base : List α} : ∀ (els : List (DeltaElement α)) (acc : List α)
    (st : Delta.FactorState α) I cs, FactorInv base acc st I cs → ElsWF base.length st.e1 els →
    ∃ st' I' cs', els.foldlM Delta.factorStep st = some st' ∧ st'.e1 ≤ base.length ∧
      cs' ++ List.replicate (base.length - st'.e1) 1 = cs ++ delMask base.length st.e1 els ∧
      FactorInv base (acc ++ elsText base els) st' I' cs' := by
  intro els
  induction els with
  | nil => intro acc st I cs h hw; exact ⟨st, I, cs, rfl, hw, rfl, by simpa using h⟩
  | cons el els ih =>
    intro acc st I cs h hw
    cases el with
    | copy b e =>
      obtain ⟨h1, h2, h3⟩ := hw
      obtain ⟨st1, g1, g2, I1, g3⟩ := factorStep_copy h h1 h2 h3.lo_le
      obtain ⟨st2, I2, cs2, k1, k2, k4, k3⟩ := ih _ st1 I1 _ g3 (g2 ▸ h3)
      refine ⟨st2, I2, cs2, by simp [g1, k1], k2, ?_, by simpa using k3⟩
      rw [k4, g2]; simp [delMask]
    | insert s =>
      obtain ⟨h1, h2⟩ := hw
      obtain ⟨st1, g1, g2, I1, g3⟩ := factorStep_insert h h1 h2.lo_le
      obtain ⟨st2, I2, cs2, k1, k2, k4, k3⟩ := ih _ st1 I1 cs g3 (g2 ▸ h2)
      refine ⟨st2, I2, cs2, by simp [g1, k1], k2, ?_, by simpa using k3⟩
      rw [k4, g2]; simp [delMask]

/-- `factor` of a well-formed delta: an insert delta denoting `(I, s)` and a
deletion subset with counts `del`, which together give the delta's result. -/
theorem Delta.factor_spec (d : Delta α) (base : List α) (h : d.WF) (hl : base.length = d.baseLen) :
    ∃ ins del I s, d.factor = some (ins, del) ∧ ins.Denotes d.baseLen I s ∧ ins.Pos ∧
      del.Normal ∧ del.counts.length = d.baseLen ∧ del.counts = delMask d.baseLen 0 d.els ∧
      d.result base = keep (expandMask I del.counts) (weave I base s) := by
  have h0 : FactorInv base [] ⟨[], SubsetBuilder.new, 0, 0⟩ [] [] := by
    constructor
    · exact rfl
    · simp
    · simp
    · simp
    · exact ⟨[], SubsetBuilder.ok_new, by simp, by simp⟩
    · simp
  obtain ⟨st, I, cs, g1, g2, g4, g3⟩ := factorFold d.els [] _ _ _ h0 (by rw [hl]; exact h)
  obtain ⟨l1, l2, l3⟩ := g3.lengths
  have hb1 := g3.b1e1
  obtain ⟨ds, q1, q2, q3⟩ := g3.sb
  rw [hl] at g2
  obtain ⟨sb1, a1, a2⟩ := q1.addRange q2 g2 1
  obtain ⟨sb2, a3, a4⟩ := a2.pad d.baseLen
  have hcounts : segCounts sb2.segments = cs ++ List.replicate (d.baseLen - st.e1) 1 := by
    rw [a4.counts]
    by_cases heq : st.e1 = d.baseLen
    · rw [if_pos heq, q3, heq]; simp
    · rw [if_neg heq, q3]; simp; omega
  have hfin : Contig 0 d.baseLen (if st.b1 < d.baseLen then st.ins ++ [DeltaElement.copy st.b1 d.baseLen] else st.ins) ∧
      elsMask (if st.b1 < d.baseLen then st.ins ++ [DeltaElement.copy st.b1 d.baseLen] else st.ins) =
        I ++ List.replicate (d.baseLen - st.e1) 0 ∧
      elsIns (if st.b1 < d.baseLen then st.ins ++ [DeltaElement.copy st.b1 d.baseLen] else st.ins) = elsIns st.ins ∧
      (∀ el ∈ (if st.b1 < d.baseLen then st.ins ++ [DeltaElement.copy st.b1 d.baseLen] else st.ins), PosEl el) := by
    by_cases hlt : st.b1 < d.baseLen
    · simp only [if_pos hlt]
      refine ⟨g3.contig.append (contig_copy (by omega)), ?_, by simp, ?_⟩
      · rw [g3.mask]; simp; omega
      · intro el hel
        rcases List.mem_append.1 hel with hel | hel
        · exact g3.pos el hel
        · simp at hel; subst hel; exact hlt
    · simp only [if_neg hlt]
      have e1 : st.b1 = d.baseLen := by omega
      have e2 : st.e1 = d.baseLen := by omega
      exact ⟨e1 ▸ g3.contig, by rw [g3.mask, e1, e2]; simp, trivial, g3.pos⟩
  obtain ⟨c1, c2, c3, c4⟩ := hfin
  refine ⟨⟨⟨if st.b1 < d.baseLen then st.ins ++ [DeltaElement.copy st.b1 d.baseLen] else st.ins, d.baseLen⟩⟩, sb2.build, _, _, ?_, ⟨rfl, c1, rfl, rfl⟩, c4, a4.normal, ?_, ?_, ?_⟩
  · simp only [Delta.factor, g1]
    simp [a1, a3]
  · rw [SubsetBuilder.build_counts, hcounts]; simp; omega
  · rw [SubsetBuilder.build_counts, hcounts, ← hl, g4]; simp
  · show d.result base = _
    have t := g3.text
    rw [List.nil_append] at t
    rw [Delta.result, t, SubsetBuilder.build_counts, hcounts]
    simp only [c2, c3]
    have eb : base = base.take st.e1 ++ base.drop st.e1 := by simp
    conv => rhs; rw [eb]
    have w := weave_append I (List.replicate (d.baseLen - st.e1) 0) (base.take st.e1) (base.drop st.e1)
      (elsIns st.ins) [] (by simp; omega) l3
    rw [List.append_nil] at w
    rw [w, weave_zeros _ _ _ (by simp [hl]), expandMask_append _ _ _ _ (by omega),
      expandMask_zeros _ _ (by simp)]
    rw [keep_append _ _ _ _ (by simp; rw [weave_length _ _ _ (by simp; omega) l3])]
    rw [keep_replicate_ne (by simp)]
    simp

end Xi
