import Verif.Spec.Utf8
import Verif.Rope.Str

/-!
# Lemmas on UTF-8
-/

namespace Xi

open String (utf8EncodeChar)

/-- The number of bytes of a character, from the first byte. -/
def lenOfFirst (b : UInt8) : Nat :=
  if b.toNat < 128 then 1 else if b.toNat < 224 then 2 else if b.toNat < 240 then 3 else 4

theorem char_bound (c : Char) : c.val.toNat < 0x110000 := by
  have := c.valid
  unfold UInt32.isValidChar Nat.isValidChar at this
  omega

theorem encode_shape (c : Char) :
    ∃ b r, utf8EncodeChar c = b :: r ∧ isCont b = false ∧ (∀ x ∈ r, isCont x = true) ∧ r.length + 1 = lenOfFirst b := by
  have hv := char_bound c
  unfold utf8EncodeChar
  simp only []
  generalize c.val.toNat = v at hv
  split
  · refine ⟨_, _, rfl, ?_, by simp, ?_⟩ <;> simp [isCont, lenOfFirst] <;> omega
  · split
    · refine ⟨_, _, rfl, ?_, ?_, ?_⟩
      · simp [isCont]; omega
      · simp [isCont]; omega
      · simp [lenOfFirst]; repeat' split
        all_goals omega
    · split
      · refine ⟨_, _, rfl, ?_, ?_, ?_⟩
        · simp [isCont]; omega
        · simp [isCont]; omega
        · simp [lenOfFirst]; repeat' split
          all_goals omega
      · refine ⟨_, _, rfl, ?_, ?_, ?_⟩
        · simp [isCont]; omega
        · simp [isCont]; omega
        · simp [lenOfFirst]; repeat' split
          all_goals omega

theorem lenOfFirst_le (b : UInt8) : lenOfFirst b ≤ 4 := by
  unfold lenOfFirst; repeat' split
  all_goals omega

theorem utf8_nil : Utf8 [] := ⟨[], rfl⟩

theorem utf8_append {a b : List UInt8} (ha : Utf8 a) (hb : Utf8 b) : Utf8 (a ++ b) := by
  obtain ⟨cs, rfl⟩ := ha
  obtain ⟨ds, rfl⟩ := hb
  exact ⟨cs ++ ds, by simp⟩

theorem utf8_cons (c : Char) {s : List UInt8} (h : Utf8 s) : Utf8 (utf8EncodeChar c ++ s) := by
  obtain ⟨cs, rfl⟩ := h
  exact ⟨c :: cs, by simp⟩

theorem encode_prefix {c d : Char} {a b : List UInt8} (h : utf8EncodeChar c ++ a = utf8EncodeChar d ++ b) :
    utf8EncodeChar c = utf8EncodeChar d ∧ a = b := by
  obtain ⟨x, r, e1, -, -, l1⟩ := encode_shape c
  obtain ⟨y, s, e2, -, -, l2⟩ := encode_shape d
  have hxy : x = y := by rw [e1, e2] at h; simpa using congrArg List.head? h
  have : (utf8EncodeChar c).length = (utf8EncodeChar d).length := by
    rw [e1, e2, List.length_cons, List.length_cons, l1, l2, hxy]
  exact List.append_inj h this

theorem utf8_right {a b : List UInt8} (ha : Utf8 a) (hab : Utf8 (a ++ b)) : Utf8 b := by
  obtain ⟨cs, rfl⟩ := ha
  induction cs with
  | nil => simpa using hab
  | cons c cs ih =>
    obtain ⟨ds, hds⟩ := hab
    cases ds with
    | nil =>
      obtain ⟨x, r, e1, -⟩ := encode_shape c
      simp [e1] at hds
    | cons d ds =>
      simp only [List.flatMap_cons, List.append_assoc] at hds
      exact ih ⟨ds, (encode_prefix hds).2⟩

/-- Every boundary in the sense of the bytes is one between characters. -/
theorem utf8_split {s : List UInt8} (hs : Utf8 s) {i : Nat} (hi : isCharBoundary s i = true) :
    i ≤ s.length ∧ Utf8 (s.take i) ∧ Utf8 (s.drop i) := by
  obtain ⟨cs, rfl⟩ := hs
  induction cs generalizing i with
  | nil =>
    have : i = 0 := by simpa [isCharBoundary] using hi
    subst this
    exact ⟨by simp, utf8_nil, utf8_nil⟩
  | cons c cs ih =>
    obtain ⟨x, r, e1, h1, h2, -⟩ := encode_shape c
    by_cases h0 : i = 0
    · subst h0
      exact ⟨by simp, by simpa using utf8_nil, ⟨c :: cs, by simp⟩⟩
    · by_cases hlt : i < (utf8EncodeChar c).length
      · exfalso
        have hcont : ∃ y, ((c :: cs).flatMap utf8EncodeChar)[i]? = some y ∧ isCont y = true := by
          rw [List.flatMap_cons, List.getElem?_append_left hlt, e1]
          obtain ⟨j, rfl⟩ : ∃ j, i = j + 1 := ⟨i - 1, by omega⟩
          rw [List.getElem?_cons_succ]
          rw [e1, List.length_cons] at hlt
          have hj : j < r.length := by omega
          exact ⟨r[j], by simp [hj], h2 _ (List.getElem_mem hj)⟩
        obtain ⟨y, hy1, hy2⟩ := hcont
        have hlen : i ≠ ((c :: cs).flatMap utf8EncodeChar).length := by
          rw [List.flatMap_cons, List.length_append]; omega
        simp only [isCharBoundary, hy1, hy2] at hi
        simp [h0] at hi
        rw [List.flatMap_cons, List.length_append] at hlen
        simp at hlen
        omega
      · have hi' : isCharBoundary (cs.flatMap utf8EncodeChar) (i - (utf8EncodeChar c).length) = true := by
          rw [List.flatMap_cons] at hi
          simp only [isCharBoundary, List.getElem?_append_right (Nat.le_of_not_lt hlt), List.length_append,
            Bool.or_eq_true, beq_iff_eq, h0, false_or] at hi ⊢
          rcases hi with hi | hi
          · left; right; omega
          · right; exact hi
        obtain ⟨g1, g2, g3⟩ := ih hi'
        refine ⟨by rw [List.flatMap_cons, List.length_append]; omega, ?_, ?_⟩
        · rw [List.flatMap_cons, List.take_append, List.take_of_length_le (by omega)]
          exact utf8_cons c g2
        · rw [List.flatMap_cons, List.drop_append, List.drop_of_length_le (by omega), List.nil_append]
          exact g3

theorem utf8_head {b : UInt8} {s : List UInt8} (h : Utf8 (b :: s)) : isCont b = false := by
  obtain ⟨cs, hcs⟩ := h
  cases cs with
  | nil => simp at hcs
  | cons c cs =>
    obtain ⟨x, r, e1, h1, -⟩ := encode_shape c
    rw [List.flatMap_cons, e1] at hcs
    simp at hcs
    rw [hcs.1]; exact h1

theorem boundary_append {a b : List UInt8} (hb : Utf8 b) : isCharBoundary (a ++ b) a.length = true := by
  cases b with
  | nil => simp [isCharBoundary]
  | cons x b => simp [isCharBoundary, utf8_head hb]

theorem utf8_left {a b : List UInt8} (hb : Utf8 b) (hab : Utf8 (a ++ b)) : Utf8 a := by
  have := (utf8_split hab (boundary_append (a := a) hb)).2.1
  simpa using this

theorem boundary_iff {s : List UInt8} (hs : Utf8 s) {i : Nat} :
    isCharBoundary s i = true ↔ i ≤ s.length ∧ Utf8 (s.take i) ∧ Utf8 (s.drop i) := by
  refine ⟨utf8_split hs, fun ⟨h1, h2, h3⟩ => ?_⟩
  have := boundary_append (a := s.take i) h3
  rwa [List.take_append_drop, List.length_take, Nat.min_eq_left h1] at this

/-- `is_char_boundary` is right on well-formed strings. -/
theorem boundary_iff_spec {s : List UInt8} (hs : Utf8 s) {i : Nat} : isCharBoundary s i = true ↔ CharBoundary s i := by
  rw [boundary_iff hs]
  constructor
  · rintro ⟨h1, ⟨cs, h2⟩, ⟨ds, h3⟩⟩
    exact ⟨cs, ds, by rw [← h2, ← h3, List.take_append_drop], by rw [← h2, List.length_take]; omega⟩
  · rintro ⟨cs, ds, rfl, rfl⟩
    exact ⟨by simp, ⟨cs, by simp⟩, ⟨ds, by simp⟩⟩

/-- Boundaries are dense: at most three bytes before any offset there is one. -/
theorem boundary_near {s : List UInt8} (hs : Utf8 s) {i : Nat} (hi : i ≤ s.length) :
    ∃ j, j ≤ i ∧ i < j + 4 ∧ isCharBoundary s j = true ∧ ∀ k, j < k → k ≤ i → isCharBoundary s k = false := by
  obtain ⟨cs, rfl⟩ := hs
  induction cs generalizing i with
  | nil =>
    simp at hi
    subst hi
    exact ⟨0, by omega, by omega, rfl, fun k h1 h2 => by omega⟩
  | cons c cs ih =>
    obtain ⟨x, r, e1, h1, h2, l1⟩ := encode_shape c
    have hl4 := lenOfFirst_le x
    have hlen : (utf8EncodeChar c).length = r.length + 1 := by rw [e1]; simp
    by_cases hlt : i < (utf8EncodeChar c).length
    · refine ⟨0, by omega, by omega, by simp [isCharBoundary], fun k hk1 hk2 => ?_⟩
      have hk0 : k ≠ 0 := by omega
      obtain ⟨j, rfl⟩ : ∃ j, k = j + 1 := ⟨k - 1, by omega⟩
      have hj : j < r.length := by omega
      have hget : ((c :: cs).flatMap utf8EncodeChar)[j + 1]? = some r[j] := by
        rw [List.flatMap_cons, List.getElem?_append_left (by omega), e1, List.getElem?_cons_succ]
        simp [hj]
      have hne : j + 1 ≠ ((c :: cs).flatMap utf8EncodeChar).length := by
        rw [List.flatMap_cons, List.length_append]; omega
      simp only [isCharBoundary, hget, h2 _ (List.getElem_mem hj), Bool.or_eq_false_iff, beq_eq_false_iff_ne]
      exact ⟨⟨by omega, hne⟩, rfl⟩
    · rw [List.flatMap_cons, List.length_append] at hi
      obtain ⟨j, g1, g2, g3, g4⟩ := ih (i := i - (utf8EncodeChar c).length) (by omega)
      have shift : ∀ k, isCharBoundary ((c :: cs).flatMap utf8EncodeChar) (k + (utf8EncodeChar c).length) =
          (k == 0 || isCharBoundary (cs.flatMap utf8EncodeChar) k) := by
        intro k
        rw [List.flatMap_cons]
        by_cases hk : k = 0
        · subst hk
          have := boundary_append (a := utf8EncodeChar c) (b := cs.flatMap utf8EncodeChar) ⟨cs, rfl⟩
          rw [Nat.zero_add, this]; rfl
        · rw [Bool.eq_iff_iff]
          simp only [isCharBoundary, List.getElem?_append_right (Nat.le_add_left _ _), List.length_append,
            Bool.or_eq_true, beq_iff_eq, Nat.add_sub_cancel]
          have : ¬ (k + (utf8EncodeChar c).length = 0) := by omega
          have h' : (k + (utf8EncodeChar c).length = (utf8EncodeChar c).length + (cs.flatMap utf8EncodeChar).length) ↔
            k = (cs.flatMap utf8EncodeChar).length := by omega
          rw [h']
          simp only [this, hk, false_or]
      refine ⟨j + (utf8EncodeChar c).length, by omega, by omega, ?_, fun k hk1 hk2 => ?_⟩
      · rw [shift, g3]; simp
      · obtain ⟨m, rfl⟩ : ∃ m, k = m + (utf8EncodeChar c).length := ⟨k - (utf8EncodeChar c).length, by omega⟩
        rw [shift, g4 m (by omega) (by omega)]
        simp; omega

end Xi
