import Verif.Spec.Wrap
import Verif.Core.VisualLinesLemmas

/-!
# Lemmas on wrapping from scratch
-/

namespace Xi

variable {rule : WrapRule}

theorem lineBoundary_iff {t : List UInt8} {A s B : List UInt8} (ht : t = A ++ (s ++ B)) (h : IsLogical A s B) {i : Nat} (h0 : 0 < i) (hi : i ≤ s.length) :
    LineBoundary t (A.length + i) ↔ i = s.length ∧ s.getLast? = some newline := by
  subst ht
  rw [LineBoundary, List.getElem?_append_right (by omega), List.getElem?_append_left (by omega)]
  rw [show A.length + i - 1 - A.length = i - 1 by omega]
  constructor
  · rintro ⟨-, h1⟩
    by_cases he : i = s.length
    · refine ⟨he, ?_⟩
      rw [List.getLast?_eq_getElem?, ← he]; exact h1
    · exfalso
      apply h.inner
      refine List.mem_of_getElem? (i := i - 1) ?_
      rw [List.getElem?_dropLast, if_pos (by omega)]; exact h1
  · rintro ⟨rfl, h1⟩
    rw [List.getLast?_eq_getElem?] at h1
    exact ⟨by omega, h1⟩

theorem no_newline {s : List UInt8} (h : newline ∉ s.dropLast) (h' : s.getLast? ≠ some newline) : newline ∉ s := by
  intro hm
  rcases List.eq_nil_or_concat s with rfl | ⟨x, y, rfl⟩
  · simp at hm
  · simp at h h' hm
    rcases hm with hm | rfl
    · exact h hm
    · exact h' rfl

/-- Each place is on a logical line. -/
theorem logical_exists : ∀ (n : Nat) (t : List UInt8), t.length = n → ∀ pos, pos ≤ t.length →
    ∃ A s B i, t = A ++ (s ++ B) ∧ IsLogical A s B ∧ pos = A.length + i ∧
      (i < s.length ∨ i = s.length ∧ B = [] ∧ s.getLast? ≠ some newline) := by
  intro n
  induction n using Nat.strongRecOn with
  | ind n ih =>
    intro t ht pos hp
    by_cases hm : newline ∈ t
    · obtain ⟨x, y, rfl, hx⟩ := List.eq_append_cons_of_mem hm
      simp only [List.length_append, List.length_cons] at ht hp
      by_cases hpx : pos < x.length + 1
      · exact ⟨[], x ++ [newline], y, pos, by simp, ⟨.inl rfl, by simpa using hx, .inl (by simp)⟩, by simp, .inl (by simpa using hpx)⟩
      · obtain ⟨A, s, B, i, rfl, hl, hpos, hi⟩ := ih y.length (by omega) y rfl (pos - (x.length + 1)) (by omega)
        refine ⟨x ++ newline :: A, s, B, i, by simp, ⟨.inr ?_, hl.inner, hl.stop⟩, ?_, hi⟩
        · rcases hl.start with rfl | h1
          · simp
          · obtain ⟨z, rfl⟩ := List.getLast?_eq_some_iff.1 h1
            rw [← List.cons_append, ← List.append_assoc, List.getLast?_concat]
        · simp only [List.length_append, List.length_cons]; omega
    · refine ⟨[], t, [], pos, by simp, ⟨.inl rfl, fun h => hm (List.dropLast_subset t h), .inr rfl⟩, by simp, ?_⟩
      by_cases h : pos < t.length
      · exact .inl h
      · exact .inr ⟨by omega, rfl, fun h => hm (List.mem_of_getLast? h)⟩

theorem logicalStart_eq {A s B : List UInt8} (h : IsLogical A s B) {i : Nat}
    (hi : i < s.length ∨ i = s.length ∧ B = [] ∧ s.getLast? ≠ some newline) :
    logicalStart (A ++ (s ++ B)) (A.length + i) = A.length := by
  have hno : newline ∉ s.take i := by
    rcases hi with hi | ⟨rfl, -, hl⟩
    · intro hm
      apply h.inner
      rw [List.dropLast_eq_take]
      exact (List.take_subset_take_left s (by omega)) hm
    · intro hm
      exact no_newline h.inner hl (List.mem_of_mem_take hm)
  have hle : i ≤ s.length := by omega
  rw [logicalStart, List.take_length_add_append, List.take_append_of_le_length hle, List.reverse_append,
    List.takeWhile_append_of_pos (by
      intro x hx
      simp only [List.mem_reverse] at hx
      simp only [bne_iff_ne, ne_eq]
      rintro rfl; exact hno hx)]
  have : A.reverse.takeWhile (· != newline) = [] := by
    rcases h.start with rfl | h1
    · rfl
    · obtain ⟨x, rfl⟩ := List.getLast?_eq_some_iff.1 h1
      simp
  rw [this]
  simp
  omega

theorem logicalStop_eq {A s B : List UInt8} (h : IsLogical A s B) {i : Nat}
    (hi : i < s.length ∨ i = s.length ∧ B = [] ∧ s.getLast? ≠ some newline) :
    logicalStop (A ++ (s ++ B)) (A.length + i) = A.length + s.length := by
  have hle : i ≤ s.length := by omega
  rw [logicalStop, List.drop_length_add_append, List.drop_append_of_le_length hle]
  by_cases hl : s.getLast? = some newline
  · obtain ⟨x, rfl⟩ := List.getLast?_eq_some_iff.1 hl
    have hlt : i < (x ++ [newline]).length := by
      rcases hi with hi | ⟨-, -, hi⟩
      · exact hi
      · exact absurd hl hi
    simp at hlt
    have hx : newline ∉ x := by simpa using h.inner
    rw [List.drop_append_of_le_length (by omega)]
    have : (x.drop i ++ [newline] ++ B).findIdx? (· == newline) = some (x.drop i).length := by
      rw [List.append_assoc, List.findIdx?_append]
      have : (x.drop i).findIdx? (· == newline) = none := by
        rw [List.findIdx?_eq_none_iff]
        intro y hy
        simp only [beq_eq_false_iff_ne, ne_eq]
        rintro rfl; exact hx (List.mem_of_mem_drop hy)
      rw [this]
      simp [List.findIdx?_cons]
    rw [this]
    simp; omega
  · have hB : B = [] := by
      rcases h.stop with h1 | h1
      · exact absurd h1 hl
      · exact h1
    subst hB
    have hn := no_newline h.inner hl
    have : (s.drop i ++ []).findIdx? (· == newline) = none := by
      rw [List.findIdx?_eq_none_iff]
      intro y hy
      simp only [beq_eq_false_iff_ne, ne_eq]
      rintro rfl
      simp at hy
      exact hn (List.mem_of_mem_drop hy)
    rw [this]
    simp

theorem wrapOneLine_eq {A s B : List UInt8} (h : IsLogical A s B) {i : Nat}
    (hi : i < s.length ∨ i = s.length ∧ B = [] ∧ s.getLast? ≠ some newline) :
    wrapOneLine rule (A ++ (s ++ B)) (A.length + i) = (rule s i).map (A.length + ·) := by
  rw [wrapOneLine, logicalStart_eq h hi, logicalStop_eq h hi]
  rw [List.take_length_add_append, List.take_append_of_le_length (Nat.le_refl _), List.take_length, List.drop_left, Nat.add_sub_cancel_left]

/-- Two logical lines that share a place are the same. -/
theorem logical_unique {A s B A' s' B' : List UInt8} (h : IsLogical A s B) (h' : IsLogical A' s' B')
    (e : A ++ (s ++ B) = A' ++ (s' ++ B')) {i i' : Nat}
    (hi : i < s.length ∨ i = s.length ∧ B = [] ∧ s.getLast? ≠ some newline)
    (hi' : i' < s'.length ∨ i' = s'.length ∧ B' = [] ∧ s'.getLast? ≠ some newline)
    (hp : A.length + i = A'.length + i') : A = A' ∧ s = s' ∧ i = i' := by
  have h1 := logicalStart_eq h hi
  have h2 := logicalStop_eq h hi
  rw [e, hp] at h1 h2
  rw [logicalStart_eq h' hi'] at h1
  rw [logicalStop_eq h' hi'] at h2
  have hA : A = A' := by
    have := congrArg (List.take A.length) e
    rw [List.take_left] at this
    rw [this, ← h1, List.take_left]
  subst hA
  refine ⟨rfl, ?_, by omega⟩
  have := List.append_cancel_left e
  have h3 := congrArg (List.take s.length) this
  rw [List.take_left, show s.length = s'.length by omega, List.take_left] at h3
  exact h3

theorem Reach.le (hr : rule.Ok) {s : List UInt8} {i : Nat} (h : Reach rule s i) : i ≤ s.length := by
  cases h with
  | zero => omega
  | step _ e => exact (hr.forward e).2

/-- The places that are reached are those of one chain. -/
theorem Reach.next (hr : rule.Ok) {s : List UInt8} {i j k : Nat} (h : Reach rule s i) (hk : Reach rule s k) (e : rule s i = some j)
    (hlt : i < k) : j ≤ k := by
  have key : ∀ N : Nat, ∀ {k i : Nat}, i + k ≤ N → Reach rule s k → Reach rule s i → i < k → ∃ j, rule s i = some j ∧ j ≤ k := by
    intro N
    induction N with
    | zero => intro k i h1 _ _ h2; omega
    | succ N ih =>
      intro k i hN hk hi hlt
      cases hk with
      | zero => omega
      | @step a b ha hab =>
        have hf := (hr.forward hab).1
        rcases Nat.lt_trichotomy i a with h1 | h1 | h1
        · obtain ⟨j, e1, e2⟩ := ih (by omega) ha hi h1
          exact ⟨j, e1, by omega⟩
        · subst h1; exact ⟨_, hab, Nat.le_refl _⟩
        · obtain ⟨j, e1, e2⟩ := ih (by omega) hi ha h1
          rw [hab] at e1; cases e1; omega
  obtain ⟨j', e1, e2⟩ := key _ (Nat.le_refl _) hk h hlt
  rw [e] at e1; cases e1; exact e2

/-! ## One step of the wrapping -/

/-- A place at which the wrapping is: the start of a logical line or a soft break. -/
def AtBreak (rule : WrapRule) (t : List UInt8) (pos : Nat) : Prop :=
  ∃ A s B i, t = A ++ (s ++ B) ∧ IsLogical A s B ∧ (i < s.length ∨ i = s.length ∧ B = [] ∧ s.getLast? ≠ some newline) ∧
    Reach rule s i ∧ pos = A.length + i

theorem Soft.pos {t : List UInt8} {k : Nat} (h : Soft rule t k) : 0 < k ∧ k < t.length := by
  obtain ⟨A, s, B, i, rfl, h1, h2, h3, h4, rfl⟩ := h
  simp; omega

theorem Soft.atBreak {t : List UInt8} {k : Nat} (h : Soft rule t k) : AtBreak rule t k := by
  obtain ⟨A, s, B, i, h0, h1, h2, h3, h4, rfl⟩ := h
  exact ⟨A, s, B, i, h0, h1, .inl h3, h4, rfl⟩

theorem Soft.apart {t : List UInt8} {k : Nat} (h : Soft rule t k) : ¬ LineBoundary t k := by
  obtain ⟨A, s, B, i, h0, h1, h2, h3, h4, rfl⟩ := h
  rw [lineBoundary_iff h0 h1 h2 (by omega)]
  omega

theorem atBreak_start {t : List UInt8} {k : Nat} (hk : k ≤ t.length) (h : k = 0 ∨ LineBoundary t k) : AtBreak rule t k := by
  obtain ⟨A, s, B, i, h0, h1, h2, h3⟩ := logical_exists _ t rfl k hk
  have hi : i = 0 := by
    apply Classical.byContradiction
    intro hi
    rcases h with h | h
    · omega
    · subst h2
      have := (lineBoundary_iff h0 h1 (by omega) (by omega)).1 h
      rcases h3 with h3 | ⟨-, -, h3⟩
      · omega
      · exact h3 this.2
  subst hi
  exact ⟨A, s, B, 0, h0, h1, h3, .zero, h2⟩

/-- The soft breaks in a logical line. -/
theorem soft_iff {t A s B : List UInt8} (h0 : t = A ++ (s ++ B)) (h : IsLogical A s B) {i : Nat} (hi : 0 < i) (hi' : i ≤ s.length) :
    Soft rule t (A.length + i) ↔ i < s.length ∧ Reach rule s i := by
  constructor
  · rintro ⟨A', s', B', i', h0', h', h1, h2, h3, h4⟩
    have := logical_unique (i := i - 1) (i' := i' - 1) h h' (by rw [← h0, h0']) (.inl (by omega)) (.inl (by omega)) (by omega)
    obtain ⟨rfl, rfl, h5⟩ := this
    have : i = i' := by omega
    subst this
    exact ⟨h2, h3⟩
  · rintro ⟨h1, h2⟩
    exact ⟨A, s, B, i, h0, h, hi, h1, h2, rfl⟩

theorem wrap_some (hr : rule.Ok) {t : List UInt8} {pos n : Nat} (h : AtBreak rule t pos) (e : wrapOneLine rule t pos = some n) :
    pos < n ∧ n ≤ t.length ∧ (Soft rule t n ∨ LineBoundary t n) ∧
      ∀ k, pos < k → k < n → ¬ Soft rule t k ∧ ¬ LineBoundary t k := by
  obtain ⟨A, s, B, i, h0, h1, h2, h3, rfl⟩ := h
  rw [h0, wrapOneLine_eq h1 h2, Option.map_eq_some_iff] at e
  obtain ⟨j, e, rfl⟩ := e
  have hf := hr.forward e
  refine ⟨by omega, by rw [h0]; simp; omega, ?_, ?_⟩
  · by_cases hj : j = s.length
    · right
      rw [lineBoundary_iff h0 h1 (by omega) (by omega)]
      exact ⟨hj, hr.final (hj ▸ e)⟩
    · left
      rw [soft_iff h0 h1 (by omega) (by omega)]
      exact ⟨by omega, h3.step e⟩
  · intro k k1 k2
    obtain ⟨m, rfl⟩ : ∃ m, k = A.length + m := ⟨k - A.length, by omega⟩
    rw [lineBoundary_iff h0 h1 (by omega) (by omega), soft_iff h0 h1 (by omega) (by omega)]
    refine ⟨fun hm => ?_, by omega⟩
    have := h3.next hr hm.2 e (by omega)
    omega

theorem wrap_none (hr : rule.Ok) {t : List UInt8} {pos : Nat} (h : AtBreak rule t pos) (e : wrapOneLine rule t pos = none) :
    ∀ k, pos < k → k ≤ t.length → ¬ Soft rule t k ∧ ¬ LineBoundary t k := by
  obtain ⟨A, s, B, i, h0, h1, h2, h3, rfl⟩ := h
  rw [h0, wrapOneLine_eq h1 h2, Option.map_eq_none_iff] at e
  have hl : s.getLast? ≠ some newline := by
    intro hl
    have hi : i < s.length := by
      rcases h2 with h2 | ⟨-, -, h2⟩
      · exact h2
      · exact absurd hl h2
    obtain ⟨j, ej⟩ := hr.gives h1.inner hl hi
    rw [e] at ej; cases ej
  have hB : B = [] := by
    rcases h1.stop with h | h
    · exact absurd h hl
    · exact h
  intro k k1 k2
  rw [h0, hB] at k2
  simp at k2
  obtain ⟨m, rfl⟩ : ∃ m, k = A.length + m := ⟨k - A.length, by omega⟩
  rw [lineBoundary_iff h0 h1 (by omega) (by omega), soft_iff h0 h1 (by omega) (by omega)]
  refine ⟨fun hm => ?_, fun h => hl h.2⟩
  have key : ∀ N : Nat, ∀ {a : Nat}, a ≤ N → Reach rule s a → a ≤ i := by
    intro N
    induction N with
    | zero => intro a ha _; omega
    | succ N ih =>
      intro a ha hre
      cases hre with
      | zero => omega
      | @step b c hb hbc =>
        have hf := (hr.forward hbc).1
        have := ih (by omega) hb
        rcases Nat.lt_or_ge b i with h | h
        · exact hb.next hr h3 hbc h
        · have : b = i := by omega
          subst this
          rw [e] at hbc; cases hbc
  have := key _ (Nat.le_refl _) hm.2
  omega

theorem boundary_after_lines {t A C : List UInt8} (ht : Utf8 t) (h0 : t = A ++ C) (hA : A = [] ∨ A.getLast? = some newline) : Utf8 A ∧ Utf8 C := by
  rcases hA with rfl | hA
  · exact ⟨utf8_nil, by rw [h0] at ht; simpa using ht⟩
  · have hpos : 0 < A.length := by cases A <;> simp at hA ⊢
    have hb : LineBoundary t A.length := by
      refine ⟨hpos, ?_⟩
      rw [h0, List.getElem?_append_left (by omega), ← List.getLast?_eq_getElem?, hA]
    have := utf8_split ht (boundary_after_newline ht hb.1 hb.2)
    rw [h0] at this
    simpa using this.2

theorem Soft.char (hr : rule.Ok) {t : List UInt8} (ht : Utf8 t) {k : Nat} (h : Soft rule t k) : CharBoundary t k := by
  obtain ⟨A, s, B, i, h0, h1, h2, h3, h4, rfl⟩ := h
  obtain ⟨u1, u2⟩ := boundary_after_lines ht h0 h1.start
  have u3 : Utf8 s ∧ Utf8 B := by
    rcases h1.stop with h | rfl
    · exact boundary_after_lines u2 rfl (.inr h)
    · exact ⟨by simpa using u2, utf8_nil⟩
  cases h4 with
  | zero => omega
  | step ha e =>
    obtain ⟨cs, ds, e1, e2⟩ := hr.chars u3.1 e
    obtain ⟨as, rfl⟩ := u1
    obtain ⟨bs, hbs⟩ := u3.2
    refine ⟨as ++ cs, ds ++ bs, ?_, ?_⟩
    · rw [h0, e1, hbs]; simp
    · simp [e2]

/-! ## Soft breaks and editing -/

theorem getLast_append_drop {A : List UInt8} {n : Nat} (h : A.getLast? = some newline) : A.drop n = [] ∨ (A.drop n).getLast? = some newline := by
  by_cases hn : n < A.length
  · right
    rw [List.getLast?_drop, if_neg (by omega), h]
  · left
    exact List.drop_eq_nil_iff.2 (by omega)

/-- The soft breaks after a newline depend on the text after it only. -/
theorem soft_right {A B : List UInt8} (hA : A = [] ∨ A.getLast? = some newline) {k : Nat} (hk : 0 < k) :
    Soft rule (A ++ B) (A.length + k) ↔ Soft rule B k := by
  constructor
  · rintro ⟨A', s, B', i, h0, h1, h2, h3, h4, h5⟩
    have hle : A.length ≤ A'.length := by
      apply Classical.byContradiction
      intro hlt
      have hA' : A.getLast? = some newline := by
        rcases hA with rfl | h
        · simp at hlt
        · exact h
      apply h1.inner
      refine List.mem_of_getElem? (i := A.length - 1 - A'.length) ?_
      rw [List.getElem?_dropLast, if_pos (by omega)]
      have e := congrArg (fun l => l[A.length - 1]?) h0
      rw [List.getElem?_append_left (by omega), List.getElem?_append_right (by omega), List.getElem?_append_left (by omega),
        ← List.getLast?_eq_getElem?, hA'] at e
      exact e.symm
    have hd : B = A'.drop A.length ++ (s ++ B') := by
      have := congrArg (List.drop A.length) h0
      rwa [List.drop_left, List.drop_append_of_le_length hle] at this
    refine ⟨A'.drop A.length, s, B', i, hd, ⟨?_, h1.inner, h1.stop⟩, h2, h3, h4, by simp; omega⟩
    rcases h1.start with rfl | h
    · simp
    · exact getLast_append_drop h
  · rintro ⟨A', s, B', i, rfl, h1, h2, h3, h4, h5⟩
    refine ⟨A ++ A', s, B', i, by simp, ⟨?_, h1.inner, h1.stop⟩, h2, h3, h4, by simp; omega⟩
    rcases h1.start with rfl | h
    · simpa using hA
    · right
      obtain ⟨z, rfl⟩ := List.getLast?_eq_some_iff.1 h
      rw [← List.append_assoc, List.getLast?_concat]

/-- The soft breaks up to a newline depend on the text up to it only. -/
theorem soft_left {A B : List UInt8} (hA : A.getLast? = some newline ∨ B = []) {k : Nat} (hk : k ≤ A.length) :
    Soft rule (A ++ B) k ↔ Soft rule A k := by
  rcases hA with hA | rfl
  · constructor
    · rintro ⟨A', s, B', i, h0, h1, h2, h3, h4, rfl⟩
      have hle : A'.length + s.length ≤ A.length := by
        apply Classical.byContradiction
        intro hlt
        apply h1.inner
        refine List.mem_of_getElem? (i := A.length - 1 - A'.length) ?_
        rw [List.getElem?_dropLast, if_pos (by omega)]
        have e := congrArg (fun l => l[A.length - 1]?) h0
        rw [List.getElem?_append_left (by omega), List.getElem?_append_right (by omega), List.getElem?_append_left (by omega),
          ← List.getLast?_eq_getElem?, hA] at e
        exact e.symm
      have ht : A = A' ++ (s ++ B'.take (A.length - (A'.length + s.length))) := by
        have := congrArg (List.take A.length) h0
        rw [List.take_left, List.take_append, List.take_append, List.take_of_length_le (by omega), List.take_of_length_le (by omega),
          Nat.sub_sub] at this
        exact this
      refine ⟨A', s, _, i, ht, ⟨h1.start, h1.inner, ?_⟩, h2, h3, h4, rfl⟩
      rcases h1.stop with h | h
      · exact .inl h
      · right; rw [h]; simp
    · rintro ⟨A', s, B', i, rfl, h1, h2, h3, h4, rfl⟩
      refine ⟨A', s, B' ++ B, i, by simp, ⟨h1.start, h1.inner, ?_⟩, h2, h3, h4, rfl⟩
      rcases h1.stop with h | h
      · exact .inl h
      · left
        subst h
        rw [List.append_nil, List.getLast?_append] at hA
        cases hs : s.getLast? with
        | none =>
          rw [List.getLast?_eq_none_iff] at hs
          subst hs; simp at h3
        | some x => rw [hs] at hA; exact hA
  · simp

end Xi
