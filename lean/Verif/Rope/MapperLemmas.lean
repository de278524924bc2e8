import Verif.Rope.MultisetLemmas

/-! # Lemmas about `Mapper` -/

namespace Xi

/-- Number of positions below `j` covered by a list of ranges. -/
def rangesCount (rs : List (Nat × Nat)) (j : Nat) : Nat :=
  (rs.map (fun r => min j r.2 - min j r.1)).sum

/-- Ranges in increasing order, starting at or after `lo`. -/
def RangesFrom : Nat → List (Nat × Nat) → Prop
  | _, [] => True
  | lo, r :: rest => lo ≤ r.1 ∧ r.1 ≤ r.2 ∧ RangesFrom r.2 rest

theorem rangesCount_zero {lo : Nat} {rs : List (Nat × Nat)} (h : RangesFrom lo rs) {j} (hj : j ≤ lo) :
    rangesCount rs j = 0 := by
  induction rs generalizing lo with
  | nil => rfl
  | cons r rest ih =>
    obtain ⟨h1, h2, h3⟩ := h
    have := ih h3 (by omega)
    simp only [rangesCount, List.map_cons, List.sum_cons] at this ⊢
    omega

theorem RangesFrom.mono {lo lo' : Nat} {rs} (h : RangesFrom lo rs) (hl : lo' ≤ lo) : RangesFrom lo' rs := by
  cases rs with
  | nil => trivial
  | cons r rest => exact ⟨by have := h.1; omega, h.2.1, h.2.2⟩

theorem rangesFrom_rangeGo (m : CountMatcher) (segs : List Segment) (pos : Nat) :
    RangesFrom pos (Subset.rangeGo m segs pos) := by
  induction segs generalizing pos with
  | nil => trivial
  | cons s rest ih =>
    simp only [Subset.rangeGo]
    split
    · exact ⟨by simp, by simp, ih _⟩
    · exact (ih _).mono (by omega)

theorem rangesCount_rangeGo (m : CountMatcher) (segs : List Segment) (pos j : Nat) :
    rangesCount (Subset.rangeGo m segs pos) j =
      ((segCounts segs).take (j - pos)).countP m.matchesCount := by
  induction segs generalizing pos with
  | nil => simp [Subset.rangeGo, rangesCount]
  | cons s rest ih =>
    simp only [Subset.rangeGo, segCounts_cons, List.take_append, List.countP_append,
      List.take_replicate, List.countP_replicate, List.length_replicate, CountMatcher.matchesSeg_eq]
    have := ih (pos + s.len)
    have e : j - (pos + s.len) = j - pos - s.len := by omega
    rw [e] at this
    by_cases hc : m.matchesCount s.count = true
    · simp only [if_pos hc]
      rw [← this]
      simp only [rangesCount, List.map_cons, List.sum_cons]
      omega
    · simp only [if_neg hc]
      rw [← this]; omega

/-- The mapper state is correct for all queries from `lastI` on. -/
def Mapper.Inv (cs : List Nat) (m : CountMatcher) (mp : Mapper) : Prop :=
  match mp.curRange with
  | none => ∀ j, mp.lastI ≤ j → (cs.take j).countP m.matchesCount = mp.consumed
  | some (b, e) => b ≤ e ∧ RangesFrom e mp.ranges ∧
      ∀ j, mp.lastI ≤ j → (cs.take j).countP m.matchesCount =
        mp.consumed + (min j e - min j b) + rangesCount mp.ranges j

theorem Mapper.inv_init (s : Subset) (m) : (s.mapper m).Inv s.counts m := by
  refine ⟨by simp, rangesFrom_rangeGo _ _ _, ?_⟩
  intro j _
  simp [Subset.mapper, Subset.rangeIter, rangesCount_rangeGo, Subset.counts]

theorem Mapper.loop_spec (cs : List Nat) (m : CountMatcher) (i : Nat) :
    ∀ (ranges : List (Nat × Nat)) (b e consumed : Nat), b ≤ e → RangesFrom e ranges →
    (∀ j, i ≤ j → (cs.take j).countP m.matchesCount =
        consumed + (min j e - min j b) + rangesCount ranges j) →
    (Mapper.loop i ranges (b, e) consumed).1 = (cs.take i).countP m.matchesCount ∧
    Mapper.Inv cs m ⟨(Mapper.loop i ranges (b, e) consumed).2.1, i,
      (Mapper.loop i ranges (b, e) consumed).2.2.1, (Mapper.loop i ranges (b, e) consumed).2.2.2⟩ := by
  intro ranges
  induction ranges with
  | nil =>
    intro b e consumed hbe hr h
    unfold Mapper.loop
    by_cases h1 : i ≥ e
    · simp only [if_pos h1]
      have hi : ∀ j, i ≤ j → (cs.take j).countP m.matchesCount = consumed + (e - b) := by
        intro j hj; rw [h j hj]; simp only [rangesCount, List.map_nil, List.sum_nil]; omega
      exact ⟨(hi i (Nat.le_refl _)).symm, hi⟩
    · simp only [if_neg h1]
      have := h i (Nat.le_refl _)
      simp only [rangesCount, List.map_nil, List.sum_nil] at this
      by_cases h2 : i ≥ b
      · simp only [if_pos h2]; exact ⟨by omega, hbe, hr, h⟩
      · simp only [if_neg h2]; exact ⟨by omega, hbe, hr, h⟩
  | cons r rest ih =>
    intro b e consumed hbe hr h
    obtain ⟨r1, r2⟩ := r
    unfold Mapper.loop
    by_cases h1 : i ≥ e
    · simp only [if_pos h1]
      refine ih r1 r2 _ hr.2.1 hr.2.2 ?_
      intro j hj
      rw [h j hj]
      simp only [rangesCount, List.map_cons, List.sum_cons]
      omega
    · simp only [if_neg h1]
      have := h i (Nat.le_refl _)
      rw [rangesCount_zero hr (by omega)] at this
      by_cases h2 : i ≥ b
      · simp only [if_pos h2]; exact ⟨by omega, hbe, hr, h⟩
      · simp only [if_neg h2]; exact ⟨by omega, hbe, hr, h⟩

theorem Mapper.step_spec {cs m} {mp : Mapper} (h : mp.Inv cs m) {i} (hi : mp.lastI ≤ i) :
    ∃ mp', mp.docIndexToSubset i = some ((cs.take i).countP m.matchesCount, mp') ∧ mp'.Inv cs m ∧
      mp'.lastI = i := by
  rcases mp with ⟨ranges, lastI, cur, consumed⟩
  unfold Mapper.docIndexToSubset
  simp only at hi ⊢
  rw [if_neg (by omega)]
  cases cur with
  | none =>
    simp only [Mapper.Inv] at h
    refine ⟨⟨ranges, i, none, consumed⟩, by rw [h i hi], ?_, rfl⟩
    intro j hj
    exact h j (Nat.le_trans hi hj)
  | some be =>
    obtain ⟨b, e⟩ := be
    obtain ⟨h1, h2, h3⟩ := h
    have := Mapper.loop_spec cs m i ranges b e consumed h1 h2 (fun j hj => h3 j (by simp only; omega))
    refine ⟨_, ?_, this.2, rfl⟩
    rw [← this.1]

/-- Run a sequence of queries against a mapper. -/
def Mapper.queries : Mapper → List Nat → Option (List Nat)
  | _, [] => some []
  | mp, i :: is => do
    let (a, mp) ← mp.docIndexToSubset i
    return a :: (← Mapper.queries mp is)

theorem Mapper.queries_spec {cs m} (is : List Nat) :
    ∀ (mp : Mapper), mp.Inv cs m → (∀ i ∈ is.head?, mp.lastI ≤ i) → is.Pairwise (· ≤ ·) →
    mp.queries is = some (is.map fun i => (cs.take i).countP m.matchesCount) := by
  induction is with
  | nil => intros; rfl
  | cons i is ih =>
    intro mp h hi hp
    obtain ⟨mp', h1, h2, h3⟩ := Mapper.step_spec h (hi i (by simp))
    rw [List.pairwise_cons] at hp
    have := ih mp' h2 (fun j hj => by rw [h3]; exact hp.1 j (List.mem_of_mem_head? hj)) hp.2
    simp [Mapper.queries, h1, this]

end Xi
