import Verif.Core.IndexSet
import Verif.Props.Delta

/-!
# Index sets (core-lib/src/index_set.rs): C31
-/

namespace Xi

namespace IndexSet

/-- The indices in the set. -/
def Has (ranges : List (Nat × Nat)) (k : Nat) : Prop := ∃ r ∈ ranges, r.1 ≤ k ∧ k < r.2

/-- The ranges are sorted and do not overlap, and none is empty. -/
def Sorted (ranges : List (Nat × Nat)) : Prop := ranges.Pairwise (fun a b => a.2 ≤ b.1) ∧ ∀ r ∈ ranges, r.1 < r.2

theorem has_nil (k : Nat) : Has [] k ↔ False := by simp [Has]

theorem has_cons (r : Nat × Nat) (rs : List (Nat × Nat)) (k : Nat) : Has (r :: rs) k ↔ (r.1 ≤ k ∧ k < r.2) ∨ Has rs k := by simp [Has]

theorem has_append (a b : List (Nat × Nat)) (k : Nat) : Has (a ++ b) k ↔ Has a k ∨ Has b k := by
  simp only [Has, List.mem_append]
  constructor
  · rintro ⟨r, h | h, h'⟩
    · exact .inl ⟨r, h, h'⟩
    · exact .inr ⟨r, h, h'⟩
  · rintro (⟨r, h, h'⟩ | ⟨r, h, h'⟩)
    · exact ⟨r, .inl h, h'⟩
    · exact ⟨r, .inr h, h'⟩

theorem sorted_cons (r : Nat × Nat) (rs : List (Nat × Nat)) : Sorted (r :: rs) ↔ r.1 < r.2 ∧ (∀ x ∈ rs, r.2 ≤ x.1) ∧ Sorted rs := by
  simp only [Sorted, List.pairwise_cons, List.mem_cons, forall_eq_or_imp]
  constructor
  · rintro ⟨⟨a, b⟩, c, d⟩; exact ⟨c, a, b, d⟩
  · rintro ⟨c, a, b, d⟩; exact ⟨⟨a, b⟩, c, d⟩

theorem sorted_nil : Sorted [] := by simp [Sorted]

theorem joinRanges_spec {stop : Nat} : ∀ {last : Nat} {rest : List (Nat × Nat)}, Sorted rest → (∀ x ∈ rest, last ≤ x.1) →
    Sorted (joinRanges stop last rest).2 ∧ last ≤ (joinRanges stop last rest).1 ∧
    (∀ x ∈ (joinRanges stop last rest).2, max stop (joinRanges stop last rest).1 ≤ x.1 ∧ x ∈ rest) ∧
    ∀ k, (k < max stop (joinRanges stop last rest).1 ∨ Has (joinRanges stop last rest).2 k) ↔ (k < max stop last ∨ Has rest k) := by
  intro last rest
  induction rest generalizing last with
  | nil => intro _ _; simp [joinRanges, sorted_nil]
  | cons r rest ih =>
    obtain ⟨a, b⟩ := r
    intro hs hl
    rw [sorted_cons] at hs
    have hl0 := hl (a, b) (by simp)
    simp only at hs hl0
    simp only [joinRanges]
    by_cases hc : stop ≥ a
    · rw [if_pos hc]
      obtain ⟨i1, i2, i3, i4⟩ := ih (last := b) hs.2.2 (fun x hx => hs.2.1 x hx)
      refine ⟨i1, by omega, fun x hx => ⟨(i3 x hx).1, by simp [(i3 x hx).2]⟩, fun k => ?_⟩
      rw [i4, has_cons]
      simp only
      constructor
      · rintro (h | h)
        · by_cases k < max stop last
          · left; assumption
          · right; left; omega
        · right; right; exact h
      · rintro (h | h | h)
        · left; omega
        · left; omega
        · right; exact h
    · rw [if_neg hc]
      refine ⟨by rw [sorted_cons]; exact hs, Nat.le_refl _, fun x hx => ⟨?_, hx⟩, fun k => Iff.rfl⟩
      simp only [List.mem_cons] at hx
      rcases hx with rfl | hx
      · simp only; omega
      · have := hs.2.1 x hx
        simp only; omega

/-- **C31.**  Adding a range adds exactly its indices, and the ranges stay sorted and
disjoint. -/
theorem C31_add {start stop : Nat} (hlt : start < stop) : ∀ {ranges : List (Nat × Nat)}, Sorted ranges →
    Sorted (unionOneRange start stop ranges) ∧ ∀ k, Has (unionOneRange start stop ranges) k ↔ Has ranges k ∨ start ≤ k ∧ k < stop := by
  have key : ∀ {ranges : List (Nat × Nat)}, Sorted ranges →
      Sorted (unionOneRange start stop ranges) ∧ (∀ c, c ≤ start → (∀ x ∈ ranges, c ≤ x.1) → ∀ x ∈ unionOneRange start stop ranges, c ≤ x.1) ∧
      ∀ k, Has (unionOneRange start stop ranges) k ↔ Has ranges k ∨ start ≤ k ∧ k < stop := by
    intro ranges
    induction ranges with
    | nil => intro _; simp [unionOneRange, Sorted, Has, hlt]
    | cons r rest ih =>
      obtain ⟨a, b⟩ := r
      intro hs
      rw [sorted_cons] at hs
      simp only at hs
      simp only [unionOneRange]
      split
      · rename_i hc
        obtain ⟨i1, i2, i3⟩ := ih hs.2.2
        refine ⟨?_, ?_, fun k => ?_⟩
        · rw [sorted_cons]
          exact ⟨hs.1, fun x hx => i2 b (by omega) hs.2.1 x hx, i1⟩
        · intro c h1 h2 x hx
          simp only [List.mem_cons] at hx
          rcases hx with rfl | hx
          · exact h2 _ (by simp)
          · exact i2 c h1 (fun y hy => h2 y (by simp [hy])) x hx
        · rw [has_cons, i3, has_cons, or_assoc]
      · split
        · rename_i hc hc'
          refine ⟨?_, ?_, fun k => ?_⟩
          · rw [sorted_cons, sorted_cons]
            refine ⟨hlt, fun x hx => ?_, hs⟩
            simp only [List.mem_cons] at hx
            rcases hx with rfl | hx
            · simp only; omega
            · have := hs.2.1 x hx
              simp only; omega
          · intro c h1 h2 x hx
            simp only [List.mem_cons] at hx
            rcases hx with rfl | rfl | hx
            · exact h1
            · exact h2 _ (by simp)
            · exact h2 _ (by simp [hx])
          · rw [has_cons, or_comm]
        · rename_i hc hc'
          obtain ⟨j1, j2, j3, j4⟩ := joinRanges_spec (stop := stop) (last := b) hs.2.2 hs.2.1
          generalize joinRanges stop b rest = j at *
          refine ⟨?_, ?_, fun k => ?_⟩
          · rw [sorted_cons]
            refine ⟨by simp only; omega, fun x hx => (j3 x hx).1, j1⟩
          · intro c h1 h2 x hx
            simp only [List.mem_cons] at hx
            rcases hx with rfl | hx
            · have := h2 (a, b) (by simp)
              simp only at this ⊢; omega
            · exact h2 x (by simp [(j3 x hx).2])
          · have hk := j4 k
            rw [has_cons, has_cons]
            simp only
            have hle : Has rest k → min start a ≤ k := by
              rintro ⟨x, hx, h1, h2⟩
              have := hs.2.1 x hx
              omega
            have hle' : Has j.2 k → min start a ≤ k := by
              rintro ⟨x, hx, h1, h2⟩
              have := (j3 x hx).1
              omega
            constructor
            · rintro (h | h)
              · by_cases hr : Has rest k
                · exact .inl (.inr hr)
                · have := (hk.1 (.inl h.2)).resolve_right hr
                  by_cases hab : a ≤ k ∧ k < b
                  · exact .inl (.inl hab)
                  · right; omega
              · have := hk.1 (.inr h)
                by_cases hr : Has rest k
                · exact .inl (.inr hr)
                · have := this.resolve_right hr
                  have := hle' h
                  by_cases hab : a ≤ k ∧ k < b
                  · exact .inl (.inl hab)
                  · right; omega
            · rintro ((h | h) | h)
              · have := hk.2 (.inl (by omega))
                rcases this with this | this
                · exact .inl ⟨by omega, this⟩
                · exact .inr this
              · have := hk.2 (.inr h)
                have := hle h
                rcases hk.2 (.inr h) with h' | h'
                · exact .inl ⟨this, h'⟩
                · exact .inr h'
              · have := hk.2 (.inl (by omega))
                rcases this with this | this
                · exact .inl ⟨by omega, this⟩
                · exact .inr this
  exact fun {_} hs => ⟨(key hs).1, (key hs).2.2⟩

/-! ## Deleting -/

/-- What is left of a range. -/
def cut (start stop : Nat) (r : Nat × Nat) : List (Nat × Nat) :=
  (if r.1 < start then [(r.1, min r.2 start)] else []) ++ (if stop < r.2 then [(max r.1 stop, r.2)] else [])

theorem cut_keep {start stop : Nat} {r : Nat × Nat} (hr : r.1 < r.2) (h : start ≤ stop) (hk : stop ≤ r.1 ∨ r.2 ≤ start) : cut start stop r = [r] := by
  obtain ⟨a, b⟩ := r
  simp only at *
  rcases hk with hk | hk
  · simp [cut, show ¬ a < start by omega, show stop < b by omega, Nat.max_eq_left hk]
  · simp [cut, show a < start by omega, show ¬ stop < b by omega, Nat.min_eq_left hk]

theorem flatMap_keep {start stop : Nat} {rs : List (Nat × Nat)} (h : start ≤ stop) (hk : ∀ r ∈ rs, r.1 < r.2 ∧ (stop ≤ r.1 ∨ r.2 ≤ start)) :
    rs.flatMap (cut start stop) = rs := by
  induction rs with
  | nil => rfl
  | cons r rs ih =>
    rw [List.flatMap_cons, cut_keep (hk r (by simp)).1 h (hk r (by simp)).2, ih (fun x hx => hk x (by simp [hx]))]
    rfl

theorem deleteLoop_inner {start stop : Nat} (h : start ≤ stop) : ∀ {rest : List (Nat × Nat)} (fuel : Nat) (s : DelState), rest.length < fuel → Sorted rest →
    (∀ x ∈ rest, start ≤ x.1) → ∃ D E, deleteLoop start stop fuel rest s = some ⟨s.done ++ D ++ E,
      if D = [] then s.from_ else some (s.from_.getD s.done.length), s.len + D.length⟩ ∧ rest.flatMap (cut start stop) = E := by
  intro rest
  induction rest with
  | nil =>
    intro fuel s hf _ _
    obtain ⟨fuel, rfl⟩ : ∃ f, fuel = f + 1 := ⟨fuel - 1, by simp at hf; omega⟩
    exact ⟨[], [], by simp [deleteLoop], by simp⟩
  | cons r rest ih =>
    obtain ⟨a, b⟩ := r
    intro fuel s hf hs hst
    obtain ⟨fuel, rfl⟩ : ∃ f, fuel = f + 1 := ⟨fuel - 1, by omega⟩
    simp only [List.length_cons] at hf
    rw [sorted_cons] at hs
    have ha := hst (a, b) (by simp)
    simp only at hs ha
    unfold deleteLoop
    by_cases h1 : a ≥ stop
    · rw [if_pos h1]
      refine ⟨[], (a, b) :: rest, by simp, flatMap_keep h ?_⟩
      intro x hx
      simp only [List.mem_cons] at hx
      rcases hx with rfl | hx
      · exact ⟨hs.1, .inl h1⟩
      · have := hs.2.1 x hx
        exact ⟨hs.2.2.2 x hx, .inl (by omega)⟩
    · rw [if_neg h1, if_neg (by omega)]
      by_cases h2 : b > stop
      · rw [if_pos h2]
        obtain ⟨D, E, e1, e2⟩ := ih fuel { s with done := s.done ++ [(stop, b)] } (by omega) hs.2.2 (fun x hx => hst x (by simp [hx]))
        have hkeep : rest.flatMap (cut start stop) = rest := by
          apply flatMap_keep h
          intro x hx
          have := hs.2.1 x hx
          exact ⟨hs.2.2.2 x hx, .inl (by omega)⟩
        have hstop : deleteLoop start stop fuel rest { s with done := s.done ++ [(stop, b)] } = some ⟨s.done ++ [(stop, b)] ++ rest, s.from_, s.len⟩ := by
          obtain ⟨fuel, rfl⟩ : ∃ f, fuel = f + 1 := ⟨fuel - 1, by omega⟩
          cases rest with
          | nil => simp [deleteLoop]
          | cons x xs =>
            have := hs.2.1 x (by simp)
            simp only [deleteLoop]
            rw [if_pos (by omega)]
        refine ⟨[], (stop, b) :: rest, ?_, ?_⟩
        · rw [hstop]; simp
        · rw [List.flatMap_cons, hkeep]
          simp [cut, show ¬ a < start by omega, h2, show max a stop = stop by omega]
      · rw [if_neg h2]
        obtain ⟨D, E, e1, e2⟩ := ih fuel ⟨s.done ++ [(a, b)], if s.from_.isNone then some s.done.length else s.from_, s.len + 1⟩ (by omega) hs.2.2
          (fun x hx => hst x (by simp [hx]))
        refine ⟨(a, b) :: D, E, ?_, ?_⟩
        · rw [e1]
          cases s.from_ <;> simp [Nat.add_assoc, Nat.add_comm 1]
        · rw [List.flatMap_cons, e2]
          simp [cut, show ¬ a < start by omega, show ¬ stop < b by omega]

theorem removeNAt_mid {α : Type} (a d e : List α) : removeNAt (a ++ d ++ e) a.length d.length = some (a ++ e) := by
  unfold removeNAt
  split
  · rename_i h
    obtain ⟨x, rfl⟩ := List.length_eq_one_iff.1 h
    rw [if_pos (by simp)]
    simp [List.eraseIdx_append]
  · split
    · rw [if_pos (by simp; omega), if_pos (by simp; omega)]
      simp [List.append_assoc, List.drop_append]
    · have : d = [] := List.length_eq_zero_iff.1 (by omega)
      subst this; simp

/-- What `delete_range` gives: each range is cut. -/
theorem deleteRange_eq {ranges : List (Nat × Nat)} {start stop : Nat} (h : start ≤ stop) (hs : Sorted ranges) :
    deleteRange ranges start stop = some (ranges.flatMap (cut start stop)) := by
  obtain ⟨pre, rest, e, h1, h2, h3⟩ : ∃ pre rest, ranges = pre ++ rest ∧ pre.length = ranges.findIdx (fun r => decide (r.2 ≥ start)) ∧
      (∀ r ∈ pre, r.2 < start) ∧ ∀ r ∈ rest, start ≤ r.2 := by
    have hle := List.findIdx_le_length (xs := ranges) (p := fun r : Nat × Nat => decide (r.2 ≥ start))
    refine ⟨_, _, (List.take_append_drop (ranges.findIdx (fun r => decide (r.2 ≥ start))) ranges).symm, by rw [List.length_take]; omega, ?_, ?_⟩
    · intro r hr
      obtain ⟨i, hi, rfl⟩ := List.mem_take_iff_getElem.1 hr
      have := List.not_of_lt_findIdx (p := fun r : Nat × Nat => decide (r.2 ≥ start)) (xs := ranges) (i := i) (by omega)
      simpa using this
    · intro r hr
      obtain ⟨i, hi, rfl⟩ := List.mem_drop_iff_getElem.1 hr
      have hf := of_decide_eq_true (List.findIdx_getElem (p := fun r : Nat × Nat => decide (r.2 ≥ start)) (xs := ranges) (w := by omega))
      rcases Nat.eq_zero_or_pos i with rfl | hi0
      · simpa using hf
      · have := List.pairwise_iff_getElem.1 hs.1 (ranges.findIdx (fun r => decide (r.2 ≥ start))) (ranges.findIdx (fun r => decide (r.2 ≥ start)) + i)
          (by omega) (by omega) (by omega)
        have := hs.2 _ (List.getElem_mem hi)
        simp only [Nat.add_comm i] at *
        omega
  unfold deleteRange
  rw [← h1, e]
  simp only [List.take_left, List.drop_left]
  have hsr : Sorted rest := by
    rw [e] at hs
    exact ⟨(List.pairwise_append.1 hs.1).2.1, fun r hr => hs.2 r (by simp [hr])⟩
  have hpre : pre.flatMap (cut start stop) = pre := by
    apply flatMap_keep h
    intro r hr
    exact ⟨hs.2 r (by rw [e]; simp [hr]), .inr (by have := h2 r hr; omega)⟩
  rw [List.flatMap_append, hpre]
  have fin : ∀ (d D E : List (Nat × Nat)), finishDelete ⟨d ++ D ++ E, if D = [] then none else some ((none : Option Nat).getD d.length), 0 + D.length⟩ =
      some (d ++ E) := by
    intro d D E
    by_cases hD : D = []
    · subst hD; simp [finishDelete]
    · rw [if_neg hD]
      simp only [Option.getD_none, Nat.zero_add, finishDelete]
      exact removeNAt_mid d D E
  cases rest with
  | nil => simp [deleteLoop, finishDelete]
  | cons r rest =>
    obtain ⟨a, b⟩ := r
    rw [sorted_cons] at hsr
    simp only at hsr
    have hb := h3 (a, b) (by simp)
    simp only at hb
    by_cases ha : start ≤ a
    · obtain ⟨D, E, e1, e2⟩ := deleteLoop_inner h (rest := (a, b) :: rest) ((pre ++ (a, b) :: rest).length + 2) ⟨pre, none, 0⟩ (by simp; omega)
        (by rw [sorted_cons]; exact hsr) (by
          intro x hx
          simp only [List.mem_cons] at hx
          rcases hx with rfl | hx
          · exact ha
          · have := hsr.2.1 x hx
            omega)
      rw [e1]
      simp only [Option.bind_eq_bind, Option.bind_some]
      rw [e2]
      exact fin pre D E
    · have hrest : ∀ x ∈ rest, start ≤ x.1 := by
        intro x hx
        have := hsr.2.1 x hx
        omega
      obtain ⟨fuel, hfuel⟩ : ∃ f, (pre ++ (a, b) :: rest).length + 2 = f + 1 + 1 := ⟨_, rfl⟩
      have hfl : rest.length < fuel := by simp at hfuel; omega
      rw [hfuel]
      simp only [deleteLoop]
      by_cases h0 : a ≥ stop
      · omega
      · rw [if_neg h0, if_pos (by omega)]
        by_cases h2 : b > stop
        · rw [if_pos h2, if_pos (Nat.le_refl _)]
          have hkeep : rest.flatMap (cut start stop) = rest := by
            apply flatMap_keep h
            intro x hx
            have := hsr.2.1 x hx
            exact ⟨hsr.2.2.2 x hx, .inl (by omega)⟩
          simp [finishDelete, hkeep, cut, show a < start by omega, h2, show max a stop = stop by omega, show min b start = start by omega]
        · rw [if_neg h2]
          obtain ⟨D, E, e1, e2⟩ := deleteLoop_inner h (rest := rest) (fuel + 1) ⟨pre ++ [(a, start)], none, 0⟩ (by omega) hsr.2.2 hrest
          rw [e1]
          simp only [Option.bind_eq_bind, Option.bind_some, List.flatMap_cons]
          rw [e2]
          have := fin (pre ++ [(a, start)]) D E
          simp only [cut, show a < start by omega, if_true, if_neg h2, show min b start = start by omega, List.append_nil]
          simpa using this

/-- **C31.**  Deleting a range removes exactly its indices, does not panic, and the ranges
stay sorted and disjoint. -/
theorem C31_delete {ranges : List (Nat × Nat)} {start stop : Nat} (h : start ≤ stop) (hs : Sorted ranges) :
    ∃ ranges', deleteRange ranges start stop = some ranges' ∧ Sorted ranges' ∧ ∀ k, Has ranges' k ↔ Has ranges k ∧ ¬ (start ≤ k ∧ k < stop) := by
  refine ⟨_, deleteRange_eq h hs, ⟨?_, ?_⟩, fun k => ?_⟩
  · rw [List.pairwise_flatMap]
    constructor
    · intro r _
      simp only [cut]
      split <;> split <;> simp <;> omega
    · refine hs.1.imp_of_mem ?_
      intro a b ha hb hab x hx y hy
      have h1 : x.2 ≤ a.2 := by
        simp only [cut, List.mem_append] at hx
        rcases hx with hx | hx
        · split at hx
          · simp at hx; subst hx; simp only; omega
          · simp at hx
        · split at hx
          · simp at hx; subst hx; simp
          · simp at hx
      have h2 : b.1 ≤ y.1 := by
        simp only [cut, List.mem_append] at hy
        rcases hy with hy | hy
        · split at hy
          · simp at hy; subst hy; simp
          · simp at hy
        · split at hy
          · simp at hy; subst hy; simp only; omega
          · simp at hy
      omega
  · intro x hx
    rw [List.mem_flatMap] at hx
    obtain ⟨r, hr, hx⟩ := hx
    have := hs.2 r hr
    simp only [cut, List.mem_append] at hx
    rcases hx with hx | hx
    · split at hx
      · simp at hx; subst hx; simp only; omega
      · simp at hx
    · split at hx
      · simp at hx; subst hx; simp only; omega
      · simp at hx
  · have hcut : ∀ r : Nat × Nat, Has (cut start stop r) k ↔ (r.1 ≤ k ∧ k < r.2) ∧ ¬ (start ≤ k ∧ k < stop) := by
      intro r
      simp only [cut, has_append]
      have e1 : Has (if r.1 < start then [(r.1, min r.2 start)] else []) k ↔ r.1 ≤ k ∧ k < r.2 ∧ k < start := by
        split
        · rw [has_cons, has_nil]; grind
        · rw [has_nil]; grind
      have e2 : Has (if stop < r.2 then [(max r.1 stop, r.2)] else []) k ↔ r.1 ≤ k ∧ k < r.2 ∧ stop ≤ k := by
        split
        · rw [has_cons, has_nil]; grind
        · rw [has_nil]; grind
      rw [e1, e2]
      omega
    constructor
    · rintro ⟨x, hx, h1⟩
      rw [List.mem_flatMap] at hx
      obtain ⟨r, hr, hx⟩ := hx
      have := (hcut r).1 ⟨x, hx, h1⟩
      exact ⟨⟨r, hr, this.1⟩, this.2⟩
    · rintro ⟨⟨r, hr, h1⟩, h2⟩
      obtain ⟨x, hx, h3⟩ := (hcut r).2 ⟨h1, h2⟩
      exact ⟨x, List.mem_flatMap.2 ⟨r, hr, hx⟩, h3⟩

/-! ## What is missing -/

/-- What the iterator still has to report. -/
def MinusIter.Missing (it : MinusIter) (k : Nat) : Prop := it.start ≤ k ∧ k < it.stop ∧ ¬ Has it.ranges k

/-- The iterator is fit for going forward. -/
def MinusIter.Ok (it : MinusIter) : Prop := Sorted it.ranges ∧ ∀ r ∈ it.ranges, it.start < r.2

/-- No range begins beyond the end: needed for going backward. -/
def MinusIter.Inside (it : MinusIter) : Prop := ∀ r ∈ it.ranges, r.1 ≤ it.stop

/-- **C31.**  The iterator for the missing indices of an interval. -/
theorem C31_minus {ranges : List (Nat × Nat)} {start stop : Nat} (hs : Sorted ranges) :
    (minusOneRange ranges start stop).Ok ∧ ∀ k, (minusOneRange ranges start stop).Missing k ↔ start ≤ k ∧ k < stop ∧ ¬ Has ranges k := by
  have key : ∀ {ranges : List (Nat × Nat)}, Sorted ranges → Sorted (ranges.dropWhile (fun r => decide (start ≥ r.2))) ∧
      (∀ r ∈ ranges.dropWhile (fun r => decide (start ≥ r.2)), start < r.2) ∧
      ∀ k, start ≤ k → (Has (ranges.dropWhile (fun r => decide (start ≥ r.2))) k ↔ Has ranges k) := by
    intro ranges
    induction ranges with
    | nil => intro h; simp [h]
    | cons r rs ih =>
      intro h
      rw [sorted_cons] at h
      rw [List.dropWhile_cons]
      by_cases hc : start ≥ r.2
      · rw [if_pos (by simpa using hc)]
        obtain ⟨i1, i2, i3⟩ := ih h.2.2
        refine ⟨i1, i2, fun k hk => ?_⟩
        rw [i3 k hk, has_cons]
        constructor
        · exact .inr
        · rintro (h | h)
          · omega
          · exact h
      · rw [if_neg (by simpa using hc)]
        refine ⟨by rw [sorted_cons]; exact h, fun x hx => ?_, fun k _ => Iff.rfl⟩
        simp only [List.mem_cons] at hx
        rcases hx with rfl | hx
        · omega
        · have := h.2.1 x hx
          have := h.2.2.2 x hx
          omega
  obtain ⟨k1, k2, k3⟩ := key hs
  refine ⟨⟨k1, k2⟩, fun k => ?_⟩
  simp only [MinusIter.Missing, minusOneRange]
  constructor
  · rintro ⟨h1, h2, h3⟩; exact ⟨h1, h2, fun h => h3 ((k3 k h1).2 h)⟩
  · rintro ⟨h1, h2, h3⟩; exact ⟨h1, h2, fun h => h3 ((k3 k h1).1 h)⟩

/-- What a call returns: the first (`fwd`) or last run of missing indices, whole; these are
then no longer to be reported. -/
structure Run (fwd : Bool) (it : MinusIter) (res : Option (Nat × Nat)) (it' : MinusIter) : Prop where
  none : res = none → ∀ k, ¬ it.Missing k
  some : ∀ a b, res = some (a, b) → a < b ∧ (∀ k, it.Missing k ↔ a ≤ k ∧ k < b ∨ it'.Missing k) ∧
    (∀ k, it'.Missing k → if fwd then b < k else k + 1 < a)

theorem minusNext_spec {stop : Nat} : ∀ {ranges : List (Nat × Nat)} {start : Nat}, (⟨ranges, start, stop⟩ : MinusIter).Ok →
    Run true ⟨ranges, start, stop⟩ (minusNext stop ranges start).1 (minusNext stop ranges start).2 ∧ (minusNext stop ranges start).2.Ok ∧
    ((⟨ranges, start, stop⟩ : MinusIter).Inside → (minusNext stop ranges start).2.Inside) := by
  intro ranges
  induction ranges with
  | nil =>
    intro start hok
    simp only [minusNext]
    split
    · rename_i h
      refine ⟨⟨by simp, ?_⟩, by simp [MinusIter.Ok, sorted_nil], by simp [MinusIter.Inside]⟩
      intro a b e
      cases e
      refine ⟨h, fun k => ?_, fun k hk => ?_⟩
      · simp [MinusIter.Missing, has_nil]; omega
      · have := hk.1; have := hk.2.1; simp only at *; omega
    · rename_i h
      refine ⟨⟨fun _ k hk => ?_, by simp⟩, hok, id⟩
      have := hk.1; have := hk.2.1; simp only at *; omega
  | cons r rest ih =>
    obtain ⟨x, y⟩ := r
    intro start hok
    obtain ⟨h1, h2⟩ := hok
    simp only at h1 h2
    have hs := h1
    rw [sorted_cons] at hs
    simp only at hs
    have hy := h2 (x, y) (by simp)
    simp only at hy
    have hok2 : (⟨rest, y, stop⟩ : MinusIter).Ok := ⟨hs.2.2, fun r hr => by
      have := hs.2.1 r hr
      have := hs.2.2.2 r hr
      simp only; omega⟩
    have hfar : ∀ k, Has rest k → y ≤ k := by
      rintro k ⟨r, hr, h3, -⟩
      have := hs.2.1 r hr
      omega
    simp only [minusNext]
    split
    · rename_i h
      split
      · rename_i h'
        refine ⟨⟨by simp, ?_⟩, ⟨h1, fun r hr => ?_⟩, fun hin => ?_⟩
        · intro a b e
          cases e
          refine ⟨h, fun k => ?_, fun k hk => ?_⟩
          · simp only [MinusIter.Missing, has_cons]
            have := hfar k
            constructor
            · rintro ⟨a1, a2, a3⟩; exact .inl ⟨a1, a2⟩
            · rintro (⟨a1, a2⟩ | ⟨a1, a2, a3⟩)
              · refine ⟨a1, a2, fun hh => ?_⟩
                rcases hh with hh | hh
                · omega
                · have := this hh; omega
              · omega
          · have := hk.1; have := hk.2.1; simp only at *; omega
        · simp only
          simp only [List.mem_cons] at hr
          rcases hr with rfl | hr
          · simp only; omega
          · have := hs.2.1 r hr
            have := hs.2.2.2 r hr
            omega
        · exact hin
      · rename_i h'
        split
        · rename_i h3
          refine ⟨⟨by simp, ?_⟩, hok2, fun hin r hr => hin r (by simp [hr])⟩
          intro a b e
          cases e
          refine ⟨h3, fun k => ?_, fun k hk => ?_⟩
          · simp only [MinusIter.Missing, has_cons]
            have := hfar k
            constructor
            · rintro ⟨a1, a2, a3⟩
              by_cases hk : k < x
              · exact .inl ⟨a1, hk⟩
              · refine .inr ⟨?_, a2, fun hh => a3 (.inr hh)⟩
                apply Classical.byContradiction
                intro hn
                exact a3 (.inl ⟨by omega, by omega⟩)
            · rintro (⟨a1, a2⟩ | ⟨a1, a2, a3⟩)
              · refine ⟨a1, by omega, fun hh => ?_⟩
                rcases hh with hh | hh
                · omega
                · have := this hh; omega
              · refine ⟨by omega, a2, fun hh => ?_⟩
                rcases hh with hh | hh
                · omega
                · exact a3 hh
          · have := hk.1; simp only [if_true] at *; omega
        · rename_i h3
          obtain ⟨i1, i2, i3⟩ := ih hok2
          have hmiss : ∀ k, (⟨(x, y) :: rest, start, stop⟩ : MinusIter).Missing k ↔ (⟨rest, y, stop⟩ : MinusIter).Missing k := by
            intro k
            simp only [MinusIter.Missing, has_cons]
            constructor
            · rintro ⟨a1, a2, a3⟩
              refine ⟨?_, a2, fun hh => a3 (.inr hh)⟩
              apply Classical.byContradiction
              intro hn
              exact a3 (.inl ⟨by omega, by omega⟩)
            · rintro ⟨a1, a2, a3⟩
              refine ⟨by omega, a2, fun hh => ?_⟩
              rcases hh with hh | hh
              · omega
              · exact a3 hh
          refine ⟨⟨fun e k hk => i1.none e k ((hmiss k).1 hk), fun a b e => ?_⟩, i2, fun hin => i3 (fun r hr => hin r (by simp [hr]))⟩
          obtain ⟨j1, j2, j3⟩ := i1.some a b e
          exact ⟨j1, fun k => by rw [hmiss, j2], j3⟩
    · rename_i h
      refine ⟨⟨fun _ k hk => ?_, by simp⟩, ⟨h1, h2⟩, id⟩
      have := hk.1; have := hk.2.1; simp only at *; omega

/-- **C31.**  Going forward, each call gives the next run of missing indices, from any
state that calls of `next` and `next_back` lead to. -/
theorem C31_next {it : MinusIter} (h : it.Ok) : Run true it it.next.1 it.next.2 ∧ it.next.2.Ok ∧ (it.Inside → it.next.2.Inside) :=
  minusNext_spec h

theorem minusBack_spec {start : Nat} : ∀ {ranges : List (Nat × Nat)} {stop : Nat}, (⟨ranges.reverse, start, stop⟩ : MinusIter).Ok →
    (⟨ranges.reverse, start, stop⟩ : MinusIter).Inside →
    Run false ⟨ranges.reverse, start, stop⟩ (minusBack start ranges stop).1 (minusBack start ranges stop).2 ∧ (minusBack start ranges stop).2.Ok ∧
    (minusBack start ranges stop).2.Inside := by
  intro ranges
  induction ranges with
  | nil =>
    intro stop hok hin
    simp only [minusBack]
    split
    · rename_i h
      refine ⟨⟨by simp, ?_⟩, by simp [MinusIter.Ok, sorted_nil], by simp [MinusIter.Inside]⟩
      intro a b e
      cases e
      refine ⟨h, fun k => ?_, fun k hk => ?_⟩
      · simp [MinusIter.Missing, has_nil]; omega
      · have := hk.1; have := hk.2.1; simp only at *; omega
    · rename_i h
      refine ⟨⟨fun _ k hk => ?_, by simp⟩, hok, hin⟩
      have := hk.1; have := hk.2.1; simp only at *; omega
  | cons r rest ih =>
    obtain ⟨x, y⟩ := r
    intro stop hok hin
    obtain ⟨h1, h2⟩ := hok
    simp only [List.reverse_cons] at h1 h2
    have hxy := h1.2 (x, y) (by simp)
    have hrs : Sorted rest.reverse := ⟨(List.pairwise_append.1 h1.1).1, fun r hr => h1.2 r (by simp at hr; simp [hr])⟩
    have hfar : ∀ r ∈ rest.reverse, r.2 ≤ x := fun r hr => (List.pairwise_append.1 h1.1).2.2 r hr (x, y) (by simp)
    have hy := h2 (x, y) (by simp)
    have hx := hin (x, y) (by simp)
    simp only at hxy hy hx
    have hfk : ∀ k, Has rest.reverse k → k < x := by
      rintro k ⟨r, hr, -, h4⟩
      have := hfar r hr
      omega
    have hok2 : ∀ z, (⟨rest.reverse, start, z⟩ : MinusIter).Ok := fun z => ⟨hrs, fun r hr => h2 r (by simp at hr; simp [hr])⟩
    have hin2 : (⟨rest.reverse, start, x⟩ : MinusIter).Inside := fun r hr => by
      have := hfar r hr
      have := hrs.2 r hr
      simp only; omega
    simp only [minusBack, List.reverse_cons]
    split
    · rename_i h
      split
      · omega
      · rename_i h'
        split
        · rename_i h3
          refine ⟨⟨by simp, ?_⟩, hok2 _, hin2⟩
          intro a b e
          cases e
          refine ⟨h3, fun k => ?_, fun k hk => ?_⟩
          · simp only [MinusIter.Missing, has_append, has_cons, has_nil]
            have := hfk k
            constructor
            · rintro ⟨a1, a2, a3⟩
              by_cases hk : y ≤ k
              · exact .inl ⟨hk, a2⟩
              · refine .inr ⟨a1, ?_, fun hh => a3 (.inl hh)⟩
                apply Classical.byContradiction
                intro hn
                exact a3 (.inr (.inl ⟨by omega, by omega⟩))
            · rintro (⟨a1, a2⟩ | ⟨a1, a2, a3⟩)
              · refine ⟨by omega, by omega, fun hh => ?_⟩
                rcases hh with hh | hh | hh
                · have := this hh; omega
                · omega
                · exact hh
              · refine ⟨a1, by omega, fun hh => ?_⟩
                rcases hh with hh | hh | hh
                · exact a3 hh
                · omega
                · exact hh
          · have := hk.2.1; simp only [Bool.false_eq_true, if_false] at *; omega
        · rename_i h3
          obtain ⟨i1, i2, i3⟩ := ih (hok2 x) hin2
          have hmiss : ∀ k, (⟨rest.reverse ++ [(x, y)], start, stop⟩ : MinusIter).Missing k ↔ (⟨rest.reverse, start, x⟩ : MinusIter).Missing k := by
            intro k
            simp only [MinusIter.Missing, has_append, has_cons, has_nil]
            constructor
            · rintro ⟨a1, a2, a3⟩
              refine ⟨a1, ?_, fun hh => a3 (.inl hh)⟩
              apply Classical.byContradiction
              intro hn
              exact a3 (.inr (.inl ⟨by omega, by omega⟩))
            · rintro ⟨a1, a2, a3⟩
              refine ⟨a1, by omega, fun hh => ?_⟩
              rcases hh with hh | hh | hh
              · exact a3 hh
              · omega
              · exact hh
          refine ⟨⟨fun e k hk => i1.none e k ((hmiss k).1 hk), fun a b e => ?_⟩, i2, i3⟩
          obtain ⟨j1, j2, j3⟩ := i1.some a b e
          exact ⟨j1, fun k => by rw [hmiss, j2], j3⟩
    · rename_i h
      refine ⟨⟨fun _ k hk => ?_, by simp⟩, ⟨h1, h2⟩, by simpa using hin⟩
      have := hk.1; have := hk.2.1; simp only at *; omega

/-- **C31** (partial).  Going backward, each call gives the last run of missing indices,
provided that no stored range begins beyond the end of the interval. -/
theorem C31_next_back_partial {it : MinusIter} (h : it.Ok) (hin : it.Inside) :
    Run false it it.nextBack.1 it.nextBack.2 ∧ it.nextBack.2.Ok ∧ it.nextBack.2.Inside := by
  have := minusBack_spec (start := it.start) (ranges := it.ranges.reverse) (stop := it.stop) (by rw [List.reverse_reverse]; exact h)
    (by rw [List.reverse_reverse]; exact hin)
  rw [List.reverse_reverse] at this
  exact this

/-- **C31** fails going backward when a stored range begins beyond the end of the interval: of
the interval `0..5`, of which nothing is in the set, it reports `0..10`. -/
theorem C31_next_back_refuted : ∃ ranges start stop, Sorted ranges ∧ start ≤ stop ∧ (minusOneRange ranges start stop).nextBack.1 = some (0, 10) ∧
    ¬ (minusOneRange ranges start stop).Missing 7 :=
  ⟨[(10, 12)], 0, 5, by simp [Sorted], by decide, by decide, fun h => absurd h.2.1 (by decide)⟩

/-! ## Edits -/

/-- Position `ix` of the old text `base` is kept by the edit and is at `pos` in the new one. -/
def KeptAt {α : Type} (d : Delta α) (base : List α) (ix pos : Nat) : Prop :=
  ∃ (pre post : List (DeltaElement α)) (b e : Nat), d.els = pre ++ .copy b e :: post ∧ b ≤ ix ∧ ix < e ∧ pos = (elsText base pre).length + (ix - b)

theorem applyLoop_spec {α : Type} {d : Delta α} (hf : ∀ i j, i ≤ j → d.transformIx i false ≤ d.transformIx j false) :
    ∀ {rest acc : List (Nat × Nat)}, Sorted rest → acc.Pairwise (fun a b => a.2 < b.1) → (∀ r ∈ acc, r.1 < r.2) →
      (∀ r ∈ acc, ∀ x ∈ rest, r.2 ≤ d.transformIx x.1 false) →
      (applyLoop d rest acc).Pairwise (fun a b => a.2 < b.1) ∧ (∀ r ∈ applyLoop d rest acc, r.1 < r.2) ∧
      ∀ k, Has (applyLoop d rest acc) k ↔ Has acc k ∨ ∃ r ∈ rest, d.transformIx r.1 false ≤ k ∧ k < d.transformIx r.2 false := by
  intro rest
  induction rest with
  | nil => intro acc _ h1 h2 _; simp [applyLoop, h1]; exact fun a b hab => h2 _ hab
  | cons r rest ih =>
    obtain ⟨a, b⟩ := r
    intro acc hs h1 h2 h3
    rw [sorted_cons] at hs
    simp only at hs
    simp only [applyLoop]
    have hab := hf a b (by omega)
    have hbx : ∀ x ∈ rest, d.transformIx b false ≤ d.transformIx x.1 false := fun x hx => hf _ _ (hs.2.1 x hx)
    have h3a := fun r hr => h3 r hr (a, b) (by simp)
    have h3r := fun r hr x hx => h3 r hr x (List.mem_cons_of_mem _ hx)
    simp only at h3a
    have hex : ∀ k, (∃ r ∈ (a, b) :: rest, d.transformIx r.1 false ≤ k ∧ k < d.transformIx r.2 false) ↔
        (d.transformIx a false ≤ k ∧ k < d.transformIx b false) ∨ ∃ r ∈ rest, d.transformIx r.1 false ≤ k ∧ k < d.transformIx r.2 false := by
      intro k; simp
    simp only [hex]
    generalize d.transformIx a false = A at *
    generalize d.transformIx b false = B at *
    by_cases he : A = B
    · rw [if_pos he]
      obtain ⟨i1, i2, i3⟩ := ih hs.2.2 h1 h2 h3r
      refine ⟨i1, i2, fun k => ?_⟩
      rw [i3]
      constructor
      · rintro (h | h)
        · exact .inl h
        · exact .inr (.inr h)
      · rintro (h | h | h)
        · exact .inl h
        · omega
        · exact .inr h
    · rw [if_neg he]
      have hpush : (∀ r ∈ acc, r.2 < A) → (acc ++ [(A, B)]).Pairwise (fun a b => a.2 < b.1) ∧ (∀ r ∈ acc ++ [(A, B)], r.1 < r.2) ∧
          ∀ r ∈ acc ++ [(A, B)], ∀ x ∈ rest, r.2 ≤ d.transformIx x.1 false := by
        intro hlt
        refine ⟨?_, ?_, ?_⟩
        · rw [List.pairwise_append]
          refine ⟨h1, by simp, fun x hx y hy => ?_⟩
          simp at hy; subst hy
          exact hlt x hx
        · intro r hr
          simp only [List.mem_append, List.mem_singleton] at hr
          rcases hr with hr | rfl
          · exact h2 r hr
          · simp only; omega
        · intro r hr x hx
          simp only [List.mem_append, List.mem_singleton] at hr
          rcases hr with hr | rfl
          · exact h3r r hr x hx
          · exact hbx x hx
      cases hl : acc.getLast? with
      | none =>
        rw [List.getLast?_eq_none_iff] at hl
        subst hl
        obtain ⟨p1, p2, p3⟩ := hpush (by simp)
        obtain ⟨i1, i2, i3⟩ := ih hs.2.2 p1 p2 p3
        refine ⟨i1, i2, fun k => ?_⟩
        show Has (applyLoop d rest ([] ++ [(A, B)])) k ↔ _
        rw [i3, List.nil_append, has_cons, has_nil]
        constructor
        · rintro ((h | h) | h)
          · exact .inr (.inl h)
          · exact .inl h
          · exact .inr (.inr h)
        · rintro (h | h | h)
          · exact h.elim
          · exact .inl (.inl h)
          · exact .inr h
      | some last =>
        obtain ⟨acc0, rfl⟩ := List.getLast?_eq_some_iff.1 hl
        have hlast := h3a last (by simp)
        have hlast2 := h2 last (by simp)
        have hacc := (List.pairwise_append.1 h1).2.2
        simp only [List.dropLast_concat]
        by_cases hm : last.2 = A
        · rw [if_pos hm]
          obtain ⟨i1, i2, i3⟩ := ih (acc := acc0 ++ [(last.1, B)]) hs.2.2 (by
              rw [List.pairwise_append]
              refine ⟨(List.pairwise_append.1 h1).1, by simp, fun x hx y hy => ?_⟩
              simp at hy; subst hy
              exact hacc x hx last (by simp)) (by
              intro r hr
              simp only [List.mem_append, List.mem_singleton] at hr
              rcases hr with hr | rfl
              · exact h2 r (by simp [hr])
              · simp only; omega) (by
              intro r hr x hx
              simp only [List.mem_append, List.mem_singleton] at hr
              rcases hr with hr | rfl
              · exact h3r r (by simp [hr]) x hx
              · exact hbx x hx)
          refine ⟨i1, i2, fun k => ?_⟩
          simp only [i3, has_append, has_cons, has_nil]
          constructor
          · rintro ((h | h | h) | h)
            · exact .inl (.inl h)
            · by_cases hk : k < A
              · exact .inl (.inr (.inl ⟨h.1, by omega⟩))
              · exact .inr (.inl ⟨by omega, h.2⟩)
            · exact h.elim
            · exact .inr (.inr h)
          · rintro ((h | h | h) | h | h)
            · exact .inl (.inl h)
            · exact .inl (.inr (.inl ⟨h.1, by omega⟩))
            · exact h.elim
            · exact .inl (.inr (.inl ⟨by omega, h.2⟩))
            · exact .inr h
        · rw [if_neg hm]
          obtain ⟨p1, p2, p3⟩ := hpush (by
            intro r hr
            simp only [List.mem_append, List.mem_singleton] at hr
            rcases hr with hr | rfl
            · have := hacc r hr last (by simp)
              omega
            · omega)
          obtain ⟨i1, i2, i3⟩ := ih hs.2.2 p1 p2 p3
          refine ⟨i1, i2, fun k => ?_⟩
          rw [i3, has_append, has_cons, has_nil]
          constructor
          · rintro ((h | h | h) | h)
            · exact .inl h
            · exact .inr (.inl h)
            · exact h.elim
            · exact .inr (.inr h)
          · rintro (h | h | h)
            · exact .inl (.inl h)
            · exact .inl (.inr (.inl h))
            · exact .inr h

/-- **C31.**  Mapping a set through an edit: a character that is kept is in the new set
exactly if it was in the old one; the new ranges are sorted and no two of them touch. -/
theorem C31_edit {α : Type} {d : Delta α} (h : d.WF) {base : List α} (hl : base.length = d.baseLen) {ranges : List (Nat × Nat)} (hs : Sorted ranges) :
    Sorted (applyDelta ranges d) ∧ (applyDelta ranges d).Pairwise (fun a b => a.2 < b.1) ∧
    ∀ ix pos, KeptAt d base ix pos → (Has (applyDelta ranges d) pos ↔ Has ranges ix) := by
  obtain ⟨m1, m2, -, -⟩ := C14_transform_monotone d h
  obtain ⟨g1, g2, g3⟩ := applyLoop_spec (d := d) (m1 false) (acc := []) hs (by simp) (by simp) (by simp)
  refine ⟨⟨g1.imp (fun h => Nat.le_of_lt h), g2⟩, g1, ?_⟩
  rintro ix pos ⟨pre, post, b, e, hd, h1, h2, rfl⟩
  obtain ⟨t1, t2, -⟩ := C14_transform_tracks_characters d h hd h1 h2 base hl
  have hle := m2 ix
  rw [applyDelta, g3, has_nil]
  generalize (elsText base pre).length + (ix - b) = pos at *
  constructor
  · rintro (h | ⟨r, hr, k1, k2⟩)
    · exact h.elim
    · refine ⟨r, hr, ?_, ?_⟩
      · apply Classical.byContradiction
        intro hn
        have := m1 false (ix + 1) r.1 (by omega)
        omega
      · apply Classical.byContradiction
        intro hn
        have := m1 false r.2 ix (by omega)
        omega
  · rintro ⟨r, hr, k1, k2⟩
    refine .inr ⟨r, hr, ?_, ?_⟩
    · have := m1 false r.1 ix k1
      omega
    · have := m1 false (ix + 1) r.2 (by omega)
      omega

/-! ## All histories -/

/-- The sets that the operations lead to. -/
inductive Reachable : List (Nat × Nat) → Prop
  | new : Reachable []
  | clear {s} (h : Reachable s) : Reachable []
  | add {s start stop} (h : Reachable s) (hlt : start < stop) : Reachable (unionOneRange start stop s)
  | delete {s s' start stop} (h : Reachable s) (hle : start ≤ stop) (e : deleteRange s start stop = some s') : Reachable s'
  | edit {s} {d : Delta UInt8} (h : Reachable s) (hd : d.WF) : Reachable (applyDelta s d)

/-- **C31.**  The ranges are always sorted and disjoint. -/
theorem C31_sorted {s : List (Nat × Nat)} (h : Reachable s) : Sorted s := by
  induction h with
  | new => exact sorted_nil
  | clear => exact sorted_nil
  | add _ hlt ih => exact (C31_add hlt ih).1
  | delete _ hle e ih =>
    obtain ⟨s', e1, e2, -⟩ := C31_delete hle ih
    rw [e] at e1; cases e1; exact e2
  | @edit s d h hd ih =>
    exact (C31_edit hd (base := List.replicate d.baseLen 0) (by simp) ih).1

example : unionOneRange 4 9 [(0, 2), (3, 5), (8, 12), (20, 21)] = [(0, 2), (3, 12), (20, 21)] ∧
    deleteRange [(0, 4), (5, 6), (7, 12), (20, 21)] 3 8 = some [(0, 3), (8, 12), (20, 21)] ∧
    (minusOneRange [(0, 4), (5, 6), (7, 12), (20, 21)] 4 8).next = (some (4, 5), ⟨[(7, 12), (20, 21)], 6, 8⟩) ∧
    (minusOneRange [(0, 4), (5, 6)] 2 8).nextBack = (some (6, 8), ⟨[(0, 4)], 2, 5⟩) := by decide

example : Sorted [(0, 4), (5, 6), (7, 12), (20, 21)] ∧ (minusOneRange [(0, 4), (5, 6)] 2 8).Inside := by
  constructor
  · simp [Sorted]
  · simp [minusOneRange, MinusIter.Inside]

end IndexSet

end Xi
