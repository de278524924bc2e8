import Verif.Spec.Interval

/-!
# Interval arithmetic (rope/src/interval.rs): C49

The position `x` belongs to the interval `[s, e)` when `s ≤ x < e`.
-/

namespace Xi

/-- **C49.** `contains` is membership, `is_empty` says that there is no position
in the interval, and for every nonempty interval and every point exactly one of
before, inside and after holds. -/
theorem C49_membership (iv : Interval) (x : Nat) :
    (iv.contains x = true ↔ iv.Has x) ∧
    (iv.isEmpty = true ↔ ∀ y, ¬ iv.Has y) ∧
    (iv.isEmpty = false → [iv.isBefore x, iv.contains x, iv.isAfter x].count true = 1) ∧
    (iv.isEmpty = false → (iv.isBefore x = true ↔ ∀ y, iv.Has y → y < x)) ∧
    (iv.isEmpty = false → (iv.isAfter x = true ↔ ∀ y, iv.Has y → x < y)) := by
  obtain ⟨s, e⟩ := iv
  simp only [Interval.contains, Interval.isEmpty, Interval.isBefore, Interval.isAfter, Interval.Has,
    Bool.and_eq_true, decide_eq_true_eq, decide_eq_false_iff_not]
  refine ⟨trivial, ⟨fun h y => by omega, fun h => ?_⟩, fun h => ?_, fun h => ⟨fun h y => by omega, fun h' => ?_⟩,
    fun h => ⟨fun h y => by omega, fun h' => ?_⟩⟩
  · have := h s; omega
  · by_cases h1 : e ≤ x <;> by_cases h2 : s ≤ x <;> by_cases h3 : x < e <;> by_cases h4 : s > x <;>
      first | omega | simp [h1, h2, h3, h4]
  · have := h' (e - 1); omega
  · have := h' s; omega

example : (⟨2, 5⟩ : Interval).isEmpty = false ∧ (⟨2, 5⟩ : Interval).Has 4 ∧ ¬ (⟨2, 5⟩ : Interval).Has 5 := by
  simp [Interval.isEmpty, Interval.Has]

/-- **C49.** `intersect` is the intersection; `prefix` and `suffix` of `a` with
respect to `b` are the parts of `a` before the start and from the end of `b`, so
that for a proper interval `b` they and the intersection make up `a`. -/
theorem C49_intersect_prefix_suffix (a b : Interval) (x : Nat) :
    ((a.intersect b).Has x ↔ a.Has x ∧ b.Has x) ∧
    (a.intersect b).start ≤ (a.intersect b).stop ∧
    ((a.pre b).Has x ↔ a.Has x ∧ x < b.start) ∧
    ((a.suf b).Has x ↔ a.Has x ∧ b.stop ≤ x) ∧
    (b.start ≤ b.stop → (a.Has x ↔ (a.pre b).Has x ∨ (a.intersect b).Has x ∨ (a.suf b).Has x)) := by
  simp only [Interval.intersect, Interval.pre, Interval.suf, Interval.Has]
  omega

example : ((⟨2, 9⟩ : Interval).pre ⟨4, 6⟩, (⟨2, 9⟩ : Interval).intersect ⟨4, 6⟩, (⟨2, 9⟩ : Interval).suf ⟨4, 6⟩) =
    (⟨2, 4⟩, ⟨4, 6⟩, ⟨6, 9⟩) := by decide

/-- **C49.** `union` is the smallest interval that contains both arguments: it
has every position of either, and every interval that has these has all of it. -/
theorem C49_union (a b : Interval) :
    (∀ x, a.Has x ∨ b.Has x → (a.union b).Has x) ∧
    (∀ c : Interval, (∀ x, a.Has x ∨ b.Has x → c.Has x) → ∀ x, (a.union b).Has x → c.Has x) := by
  simp only [Interval.union, Interval.isEmpty, decide_eq_true_eq, Interval.Has]
  split
  · exact ⟨fun x h => by omega, fun c h x hx => h x (Or.inr hx)⟩
  · split
    · exact ⟨fun x h => by omega, fun c h x hx => h x (Or.inl hx)⟩
    · refine ⟨fun x h => by simp only []; omega, fun c h x hx => ?_⟩
      have h1 := h a.start (Or.inl ⟨by omega, by omega⟩)
      have h2 := h b.start (Or.inr ⟨by omega, by omega⟩)
      have h3 := h (a.stop - 1) (Or.inl ⟨by omega, by omega⟩)
      have h4 := h (b.stop - 1) (Or.inr ⟨by omega, by omega⟩)
      simp only [] at hx
      omega

example : (⟨2, 4⟩ : Interval).union ⟨7, 9⟩ = ⟨2, 9⟩ ∧ (⟨3, 3⟩ : Interval).union ⟨7, 9⟩ = ⟨7, 9⟩ := by decide

/-- **C49.** Translation moves every position; `translate_neg` is defined when
the interval starts at or after the amount, undoes `translate`, and the size is
the number of positions. -/
theorem C49_translate (a : Interval) (n x : Nat) :
    ((a.translate n).Has (x + n) ↔ a.Has x) ∧
    (x < n → ¬ (a.translate n).Has x) ∧
    (a.translate n).translateNeg n = some a ∧
    (a.start ≤ a.stop → n ≤ a.start → ∃ b, a.translateNeg n = some b ∧ b.translate n = a) ∧
    (a.start ≤ a.stop → a.size = some ((List.range a.stop).countP (fun y => a.contains y))) := by
  obtain ⟨s, e⟩ := a
  simp only [Interval.translate, Interval.translateNeg, Interval.Has, Interval.size, Interval.contains]
  refine ⟨by omega, by omega, by simp, fun h1 h2 => ?_, fun h => ?_⟩
  · refine ⟨⟨s - n, e - n⟩, ?_, ?_⟩
    · rw [if_pos ⟨h2, by omega⟩]
    · simp only [Interval.mk.injEq]; omega
  · rw [if_pos h]
    congr 1
    obtain ⟨k, rfl⟩ := Nat.exists_eq_add_of_le h
    induction k with
    | zero =>
      simp only [Nat.add_zero, Nat.sub_self]
      symm
      rw [List.countP_eq_zero]
      intro y hy
      simp at hy ⊢
    | succ k ih =>
      have ih := ih (by omega)
      rw [← Nat.add_assoc, List.range_succ, List.countP_append]
      have : (List.range (s + k)).countP (fun y => decide (s ≤ y) && decide (y < s + k + 1)) =
          (List.range (s + k)).countP (fun y => decide (s ≤ y) && decide (y < s + k)) := by
        apply List.countP_congr
        intro y hy
        simp at hy ⊢
        omega
      rw [this, ← ih]
      simp
      omega

example : (⟨2, 6⟩ : Interval).translate 3 = ⟨5, 9⟩ ∧ (⟨5, 9⟩ : Interval).translateNeg 3 = some ⟨2, 6⟩ ∧
    (⟨5, 9⟩ : Interval).size = some 4 := by decide

end Xi
