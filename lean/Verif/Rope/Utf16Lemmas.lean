import Verif.Rope.RopeMetrics

/-!
# Lemmas on ropes: UTF-16
-/

namespace Xi

open String (utf8EncodeChar)

theorem lenUtf8_eq (b : UInt8) : lenUtf8FromFirstByte b = lenOfFirst b := rfl

theorem utf16_cont {r : List UInt8} (h : ∀ x ∈ r, isCont x = true) : (r.map utf16OfByte).sum = 0 := by
  induction r with
  | nil => rfl
  | cons x r ih =>
    have h1 := h x (by simp)
    have h2 := ih (fun y hy => h y (by simp [hy]))
    simp only [List.map_cons, List.sum_cons, h2, utf16OfByte, h1, if_true]
    simp only [isCont, Bool.and_eq_true, decide_eq_true_eq] at h1
    rw [if_neg (by omega)]

theorem utf16_char (c : Char) : countUtf16CodeUnits (utf8EncodeChar c) = utf16Len c ∧
    ∃ b r, utf8EncodeChar c = b :: r ∧ lenUtf8FromFirstByte b = (utf8EncodeChar c).length ∧
      (if b.toNat ≥ 0xf0 then 2 else 1) = utf16Len c := by
  obtain ⟨b, r, e, h1, h2, h3⟩ := encode_shape c
  have hl : (utf8EncodeChar c).length = c.utf8Size := String.length_utf8EncodeChar c
  have h4 : c.utf8Size = r.length + 1 := by rw [← hl, e]; rfl
  have key : (if b.toNat ≥ 0xf0 then 2 else 1) = utf16Len c := by
    have h5 := @Char.utf8Size_eq_four_iff c
    rw [UInt32.lt_iff_toNat_lt] at h5
    simp only [utf16Len]
    have h6 : c.toNat = c.val.toNat := rfl
    rw [h6]
    have h7 : UInt32.toNat 0xffff = 65535 := rfl
    rw [h7, h4, h3] at h5
    simp only [lenOfFirst] at h5
    repeat' split
    all_goals first | rfl | (exfalso; grind)
  refine ⟨?_, b, r, e, ?_, key⟩
  · rw [countUtf16_eq, e]
    simp only [List.map_cons, List.sum_cons, utf16_cont h2, utf16OfByte, h1]
    rw [← key]
    simp only [Bool.false_eq_true, if_false]
    split <;> omega
  · rw [lenUtf8_eq, ← h3, hl, h4]

theorem utf16_text (cs : List Char) : countUtf16CodeUnits (cs.flatMap utf8EncodeChar) = (cs.map utf16Len).sum := by
  induction cs with
  | nil => rfl
  | cons c cs ih =>
    simp only [List.flatMap_cons, counts_utf16.append, ih, (utf16_char c).1, List.map_cons, List.sum_cons]

theorem utf16Len_pos (c : Char) : 0 < utf16Len c := by unfold utf16Len; split <;> omega

theorem encode_pos (c : Char) : 0 < (utf8EncodeChar c).length := by
  obtain ⟨b, r, e, -⟩ := encode_shape c
  rw [e]; simp

/-- The loop stops at the first character boundary at or after `m` units. -/
theorem utf16ToBase_spec {m : Nat} (cs : List Char) : ∀ (fuel len16 len8 : Nat), (cs.flatMap utf8EncodeChar).length ≤ fuel →
    ∃ k, k ≤ cs.length ∧
      utf16ToBase m fuel (cs.flatMap utf8EncodeChar) len16 len8 = len8 + ((cs.take k).flatMap utf8EncodeChar).length ∧
      (m ≤ len16 + ((cs.take k).map utf16Len).sum ∨ k = cs.length) ∧
      ∀ j, j < k → len16 + ((cs.take j).map utf16Len).sum < m := by
  induction cs with
  | nil =>
    intro fuel len16 len8 _
    refine ⟨0, by simp, ?_, Or.inr rfl, by omega⟩
    cases fuel <;> simp [utf16ToBase]
  | cons c cs ih =>
    intro fuel len16 len8 hf
    obtain ⟨-, b, r, e, h1, h2⟩ := utf16_char c
    have hp := encode_pos c
    rw [List.flatMap_cons, List.length_append] at hf
    obtain ⟨fuel, rfl⟩ : ∃ k, fuel = k + 1 := ⟨fuel - 1, by omega⟩
    have e2 : (c :: cs).flatMap utf8EncodeChar = b :: (r ++ cs.flatMap utf8EncodeChar) := by
      rw [List.flatMap_cons, e]; rfl
    rw [e2]
    simp only [utf16ToBase]
    by_cases hlt : len16 ≥ m
    · rw [if_pos hlt]
      exact ⟨0, by omega, by simp, Or.inl (by simpa using hlt), by omega⟩
    · rw [if_neg hlt]
      rw [show b :: (r ++ cs.flatMap utf8EncodeChar) = utf8EncodeChar c ++ cs.flatMap utf8EncodeChar by rw [e]; rfl]
      rw [h1, List.drop_left, h2]
      obtain ⟨k, g1, g2, g3, g4⟩ := ih fuel (len16 + utf16Len c) (len8 + (utf8EncodeChar c).length) (by omega)
      refine ⟨k + 1, by simp; omega, ?_, ?_, ?_⟩
      · rw [g2]; simp; omega
      · simp only [List.take_succ_cons, List.map_cons, List.sum_cons, List.length_cons]; omega
      · intro j hj
        cases j with
        | zero => simp; omega
        | succ j =>
          have := g4 j (by omega)
          simp only [List.take_succ_cons, List.map_cons, List.sum_cons]; omega

/-- `to_base_units` of the UTF-16 metric: a boundary, enough units before it, and
too few before any boundary that comes earlier. -/
theorem utf16_to_base {s : List UInt8} (hs : Utf8 s) {m : Nat} (hm : m ≤ countUtf16CodeUnits s) :
    ∃ o, utf16Metric.toBaseUnits s m = some o ∧ o ≤ s.length ∧ isCharBoundary s o = true ∧ m ≤ countUtf16CodeUnits (s.take o) ∧
      ∀ j, j < o → isCharBoundary s j = true → countUtf16CodeUnits (s.take j) < m := by
  have hs' := hs
  obtain ⟨cs, rfl⟩ := hs
  obtain ⟨k, h1, h2, h3, h4⟩ := utf16ToBase_spec (m := m) cs _ 0 0 (Nat.le_refl _)
  have hsplit : ∀ k : Nat, cs.flatMap utf8EncodeChar = (cs.take k).flatMap utf8EncodeChar ++ (cs.drop k).flatMap utf8EncodeChar := by
    intro k
    rw [← List.flatMap_append, List.take_append_drop]
  have htake : ∀ k : Nat, (cs.flatMap utf8EncodeChar).take ((cs.take k).flatMap utf8EncodeChar).length = (cs.take k).flatMap utf8EncodeChar := by
    intro k
    conv => lhs; rw [hsplit k]
    rw [List.take_left]
  refine ⟨_, rfl, ?_, ?_, ?_, ?_⟩
  · rw [h2, Nat.zero_add]
    conv => rhs; rw [hsplit k]
    simp
  · rw [h2, Nat.zero_add]
    exact (boundary_iff_spec hs').2 ⟨_, _, hsplit k, rfl⟩
  · rw [h2, Nat.zero_add, htake, utf16_text]
    rcases h3 with h3 | h3
    · omega
    · rw [utf16_text] at hm
      rw [h3, List.take_length]; exact hm
  · intro j hj hjb
    rw [h2, Nat.zero_add] at hj
    obtain ⟨as, bs, e1, e2⟩ := (boundary_iff_spec hs').1 hjb
    subst e2
    -- compare the two decompositions
    have key : ∀ (as bs cs : List Char) (k : Nat), cs.flatMap utf8EncodeChar = as.flatMap utf8EncodeChar ++ bs.flatMap utf8EncodeChar →
        (as.flatMap utf8EncodeChar).length < ((cs.take k).flatMap utf8EncodeChar).length →
        ∃ i, i < k ∧ as.flatMap utf8EncodeChar = (cs.take i).flatMap utf8EncodeChar := by
      intro as
      induction as with
      | nil =>
        intro bs cs k _ hlt
        refine ⟨0, ?_, by simp⟩
        cases k with
        | zero => simp at hlt
        | succ k => omega
      | cons a as ih =>
        intro bs cs k he hlt
        cases cs with
        | nil =>
          have := congrArg List.length he
          have hp := encode_pos a
          simp only [List.flatMap_nil, List.flatMap_cons, List.length_append, List.length_nil] at this
          omega
        | cons c cs =>
          rw [List.flatMap_cons, List.flatMap_cons, List.append_assoc] at he
          obtain ⟨q1, q2⟩ := encode_prefix he
          cases k with
          | zero => simp at hlt
          | succ k =>
            rw [List.take_succ_cons, List.flatMap_cons, List.flatMap_cons, List.length_append, List.length_append, q1] at hlt
            obtain ⟨i, hi, e⟩ := ih bs cs k q2 (by omega)
            exact ⟨i + 1, by omega, by rw [List.take_succ_cons, List.flatMap_cons, List.flatMap_cons, q1, e]⟩
    obtain ⟨i, hi, e⟩ := key as bs cs k e1 hj
    rw [e, htake, utf16_text]
    have := h4 i hi
    omega

theorem utf16_mono {s : List UInt8} {i j : Nat} (h : i ≤ j) : countUtf16CodeUnits (s.take i) ≤ countUtf16CodeUnits (s.take j) := by
  obtain ⟨d, rfl⟩ := Nat.le.dest h
  rw [List.take_add, counts_utf16.append]; omega

/-- Strictly more units before a later boundary. -/
theorem utf16_strict {s : List UInt8} (hs : Utf8 s) {i j : Nat} (hij : i < j) (hi : isCharBoundary s i = true) (hj : j ≤ s.length) :
    countUtf16CodeUnits (s.take i) < countUtf16CodeUnits (s.take j) := by
  obtain ⟨d, rfl⟩ := Nat.le.dest (Nat.le_of_lt hij)
  rw [List.take_add, counts_utf16.append]
  obtain ⟨-, -, h3⟩ := utf8_split hs hi
  cases hd : s.drop i with
  | nil =>
    have := congrArg List.length hd
    simp at this; omega
  | cons b r =>
    rw [hd] at h3
    obtain ⟨e, rfl⟩ : ∃ e, d = e + 1 := ⟨d - 1, by omega⟩
    rw [List.take_succ_cons, countUtf16_eq (b :: _), List.map_cons, List.sum_cons]
    simp only [utf16OfByte, utf8_head h3, Bool.false_eq_true, if_false]
    omega

/-- `count_base_units` of the UTF-16 metric. -/
theorem Node.countBaseUnits_utf16 {r : Rope} (hr : r.Balanced) {m : Nat} (hm : m ≤ countUtf16CodeUnits r.text) :
    ∃ o, r.countBaseUnits utf16Metric m = some o ∧ o ≤ r.text.length ∧ isCharBoundary r.text o = true ∧
      m ≤ countUtf16CodeUnits (r.text.take o) ∧
      ∀ j, j < o → isCharBoundary r.text j = true → countUtf16CodeUnits (r.text.take j) < m := by
  have hu := Rope.text_utf8 hr
  simp only [Node.countBaseUnits]
  by_cases h0 : m = 0
  · subst h0
    exact ⟨0, by simp [Node.convertMetrics], by omega, boundary_zero, by omega, by omega⟩
  by_cases hlt : m < countUtf16CodeUnits r.text
  · obtain ⟨l, pre, post, m', k1, k2, k3, k4, k5, k6, k7⟩ := Node.convertMetrics_atomic counts_utf16 counts_base rfl hr
      (m1 := m) (by omega) hlt
    simp only [LeafSpec.content] at k4 k6
    obtain ⟨o, g1, g2, g3, g4, g5⟩ := utf16_to_base k1.1 (m := m') (by omega)
    obtain ⟨-, b1, b2⟩ := utf8_split k1.1 g3
    have hbd : ∀ k, k ≤ l.length → r.text.take (pre.length + k) = pre ++ l.take k := by
      intro k hk
      rw [k4, List.take_length_add_append, List.take_append_of_le_length hk]
    refine ⟨pre.length + o, ?_, ?_, ?_, ?_, ?_⟩
    · rw [k7, g1]
      simp [baseMetric, g3]
    · rw [k4]; simp; omega
    · rw [boundary_iff hu]
      refine ⟨by rw [k4]; simp; omega, by rw [hbd o g2]; exact utf8_append k2 b1, ?_⟩
      rw [k4, List.drop_length_add_append, List.drop_append_of_le_length g2]
      exact utf8_append b2 k3
    · rw [hbd o g2, counts_utf16.append]; omega
    · intro j hj hjb
      by_cases hjp : j ≤ pre.length
      · have h1 : countUtf16CodeUnits (r.text.take j) ≤ countUtf16CodeUnits (r.text.take (pre.length + 0)) := utf16_mono (by omega)
        rw [hbd 0 (by omega)] at h1
        have h2 : countUtf16CodeUnits (pre ++ l.take 0) = countUtf16CodeUnits pre := by simp
        by_cases hm0 : 0 < m'
        · omega
        · have : o = 0 := by
            rcases Nat.eq_zero_or_pos o with h | h
            · exact h
            · have := g5 0 h boundary_zero
              omega
          have h3 := utf16_strict hu (i := j) (j := pre.length) (by omega) hjb (by rw [k4]; simp)
          rw [show r.text.take pre.length = pre by rw [k4, List.take_left]] at h3
          omega
      · obtain ⟨i, rfl⟩ := Nat.le.dest (Nat.le_of_lt (Nat.not_le.1 hjp))
        rw [hbd i (by omega), counts_utf16.append]
        have := g5 i (by omega) (by rw [k4] at hjb; exact boundary_mid k2 k3 k1.1 (by omega) hjb)
        omega
  · have hme : m = countUtf16CodeUnits r.text := by omega
    subst hme
    refine ⟨r.text.length, ?_, Nat.le_refl _, boundary_length, by rw [List.take_length]; omega, ?_⟩
    · rcases Node.convertMetrics_end counts_utf16 counts_base rfl hr (by omega) with ⟨l, k1, k2, k3⟩ | ⟨l, pre, post, k1, k2, k3, k4, k5⟩
      · simp only [LeafSpec.content] at k2
        obtain ⟨o, g1, g2, g3, g4, g5⟩ := utf16_to_base k1.1 (m := countUtf16CodeUnits l) (by omega)
        have : o = l.length := by
          rcases Nat.lt_or_ge o l.length with h | h
          · have := utf16_strict k1.1 h g3 (Nat.le_refl _)
            rw [List.take_length] at this; omega
          · omega
        rw [k3, k2, g1, this]
        simp [baseMetric, boundary_length]
      · have : pre = [] := by
          cases pre with
          | nil => rfl
          | cons b pre =>
            exfalso
            rw [k2, List.cons_append] at hu
            rw [countUtf16_eq, List.map_cons, List.sum_cons] at k3
            simp only [utf16OfByte, utf8_head hu, Bool.false_eq_true, if_false] at k3
            omega
        subst this
        obtain ⟨o, g1, g2, g3, g4, g5⟩ := utf16_to_base k1.1 (m := 0) (by omega)
        have : o = 0 := by
          rcases Nat.eq_zero_or_pos o with h | h
          · exact h
          · have := g5 0 h boundary_zero
            omega
        subst this
        rw [k5, g1]
        simp [baseMetric, boundary_zero]
    · intro j hj hjb
      have := utf16_strict hu hj hjb (Nat.le_refl _)
      rwa [List.take_length] at this

end Xi
