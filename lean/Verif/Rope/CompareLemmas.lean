import Verif.Rope.Compare
import Verif.Rope.FindLemmas
import Verif.Spec.Compare

/-!
# Lemmas on comparing ropes
-/

namespace Xi

namespace Compare

theorem neIdxFallback_spec (a : List UInt8) : ∀ b, IsFirstDifference a b (neIdxFallback a b) := by
  induction a with
  | nil => intro b; simp [neIdxFallback, IsFirstDifference]
  | cons x a ih =>
    intro b
    cases b with
    | nil => simp [neIdxFallback, IsFirstDifference]
    | cons y b =>
      unfold neIdxFallback
      by_cases h : x = y
      · subst h
        have := ih b
        simp only [bne_self_eq_false, Bool.false_eq_true, if_false]
        cases e : neIdxFallback a b with
        | none =>
          rw [e] at this
          intro k h1 h2
          cases k with
          | zero => rfl
          | succ k => simpa using this k (by simpa using h1) (by simpa using h2)
        | some i =>
          rw [e] at this
          obtain ⟨h1, h2, h3, h4⟩ := this
          refine ⟨by simpa using h1, by simpa using h2, by simpa using h3, ?_⟩
          intro k hk
          cases k with
          | zero => rfl
          | succ k => simpa using h4 k (by simp at hk; omega)
      · simp [h, IsFirstDifference]

theorem IsFirstDifference.unique {a b : List UInt8} {i j : Option Nat} (hi : IsFirstDifference a b i) (hj : IsFirstDifference a b j) : i = j := by
  cases i with
  | none =>
    cases j with
    | none => rfl
    | some j => exact absurd (hi j hj.1 hj.2.1) hj.2.2.1
  | some i =>
    cases j with
    | none => exact absurd (hj i hi.1 hi.2.1) hi.2.2.1
    | some j =>
      congr 1
      rcases Nat.lt_trichotomy i j with h | h | h
      · exact absurd (hj.2.2.2 i h) hi.2.2.1
      · exact h
      · exact absurd (hi.2.2.2 j h) hj.2.2.1

theorem neIdxFallback_eq {a b : List UInt8} {i : Option Nat} (h : IsFirstDifference a b i) : neIdxFallback a b = i :=
  IsFirstDifference.unique (neIdxFallback_spec a b) h

theorem compareMask_get {width : Nat} {one junk1 two junk2 : List UInt8} {k : Nat} (hw : one.length ≤ width) (hl : one.length = two.length)
    (hk : k < one.length) : (compareMask width one junk1 two junk2)[k]? = some (one[k]? != two[k]?) := by
  rw [compareMask, List.getElem?_zipWith]
  rw [List.getElem?_take_of_lt (by omega), List.getElem?_take_of_lt (by omega), List.getElem?_append_left hk, List.getElem?_append_left (by omega)]
  rw [List.getElem?_eq_getElem hk, List.getElem?_eq_getElem (by omega : k < two.length)]
  simp [bne]

theorem neIdxLoop_spec {width : Nat} (hw : 0 < width) (junk1 junk2 : Nat → List UInt8) (one two : List UInt8) (fuel : Nat) :
    ∀ idx, (∀ k, k < idx → one[k]? = two[k]?) → min one.length two.length < fuel + idx →
      IsFirstDifference one two (neIdxLoop width junk1 junk2 one two (min one.length two.length) fuel idx) := by
  induction fuel with
  | zero => intro idx h1 h2 k hk hk2; exact h1 k (by omega)
  | succ fuel ih =>
    intro idx h1 h2
    unfold neIdxLoop
    by_cases hi : idx < min one.length two.length
    · rw [if_pos hi]
      simp only
      have hlen1 : ((one.drop idx).take (min width (min one.length two.length - idx))).length = min width (min one.length two.length - idx) := by simp; omega
      have hlen2 : ((two.drop idx).take (min width (min one.length two.length - idx))).length = min width (min one.length two.length - idx) := by simp; omega
      have hget : ∀ k, k < min width (min one.length two.length - idx) →
          (compareMask width ((one.drop idx).take (min width (min one.length two.length - idx))) (junk1 idx)
            ((two.drop idx).take (min width (min one.length two.length - idx))) (junk2 idx))[k]? = some (one[idx + k]? != two[idx + k]?) := by
        intro k hk
        rw [compareMask_get (by omega) (by omega) (by omega), List.getElem?_take_of_lt hk, List.getElem?_take_of_lt hk]
        simp
      have next : (∀ k, k < min width (min one.length two.length - idx) → one[idx + k]? = two[idx + k]?) →
          IsFirstDifference one two (neIdxLoop width junk1 junk2 one two (min one.length two.length) fuel (idx + width)) := by
        intro h
        by_cases hm : min one.length two.length ≤ idx + width
        · have : neIdxLoop width junk1 junk2 one two (min one.length two.length) fuel (idx + width) = none := by
            cases fuel with
            | zero => rfl
            | succ f => unfold neIdxLoop; rw [if_neg (by omega)]
          rw [this]
          intro k hk1 hk2
          by_cases hk : k < idx
          · exact h1 k hk
          · have := h (k - idx) (by omega)
            rwa [Nat.add_sub_cancel' (by omega)] at this
        · apply ih
          · intro k hk1
            by_cases hk : k < idx
            · exact h1 k hk
            · have := h (k - idx) (by omega)
              rwa [Nat.add_sub_cancel' (by omega)] at this
          · omega
      have hml : (compareMask width ((one.drop idx).take (min width (min one.length two.length - idx))) (junk1 idx)
            ((two.drop idx).take (min width (min one.length two.length - idx))) (junk2 idx)).length ≤ width := by
        simp [compareMask]; omega
      generalize compareMask width ((one.drop idx).take (min width (min one.length two.length - idx))) (junk1 idx)
            ((two.drop idx).take (min width (min one.length two.length - idx))) (junk2 idx) = mask at hget hml ⊢
      have same : ∀ k, mask[k]? = some false → k < min width (min one.length two.length - idx) → one[idx + k]? = two[idx + k]? := by
        intro k hk hlt
        rw [hget k hlt] at hk
        simpa using hk
      cases e : trailingZeros mask with
      | none =>
        simp only
        apply next
        intro k hk
        refine same k ?_ hk
        unfold trailingZeros at e
        rw [List.findIdx?_eq_none_iff] at e
        have := hget k hk
        rw [this]
        congr 1
        exact e _ (List.mem_of_getElem? this)
      | some z =>
        simp only
        unfold trailingZeros at e
        rw [List.findIdx?_eq_some_iff_getElem] at e
        obtain ⟨hz, e1, e2⟩ := e
        have before : ∀ k, k < z → mask[k]? = some false := by
          intro k hk
          rw [List.getElem?_eq_getElem (by omega)]
          congr 1
          have := e2 k hk
          simpa using this
        by_cases hlt : idx + z < min one.length two.length
        · rw [if_pos hlt]
          have := hget z (by omega)
          rw [List.getElem?_eq_getElem hz, e1] at this
          refine ⟨by omega, by omega, ?_, ?_⟩
          · simp at this; exact this
          · intro k hk
            by_cases hki : k < idx
            · exact h1 k hki
            · have := same (k - idx) (before _ (by omega)) (by omega)
              rwa [Nat.add_sub_cancel' (by omega)] at this
        · rw [if_neg hlt]
          apply next
          intro k hk
          exact same k (before k (by omega)) hk
    · rw [if_neg hi]
      intro k hk hk2
      exact h1 k (by omega)

theorem neIdxVector_spec {width : Nat} (hw : 0 < width) (junk1 junk2 : Nat → List UInt8) (one two : List UInt8) :
    IsFirstDifference one two (neIdxVector width junk1 junk2 one two) :=
  neIdxLoop_spec hw junk1 junk2 one two _ 0 (by simp) (by omega)

/-- In a round, the mask tells where the bytes before `idx` differ. -/
theorem revMask_get {one two : List UInt8} {idx k : Nat} (h1 : idx ≤ one.length) (h2 : idx ≤ two.length) (hk : k < 16) :
    (revMask one two idx).reverse[k]? = some (if k < idx then one[idx - 1 - k]? != two[idx - 1 - k]? else false) := by
  unfold revMask
  by_cases hi : idx < 16
  · rw [if_pos hi]
    have hl : (compareMask 16 (List.replicate (16 - idx) 0 ++ one.take idx) [] (List.replicate (16 - idx) 0 ++ two.take idx) []).length = 16 := by
      simp [compareMask]; omega
    rw [List.getElem?_reverse (by omega), hl, compareMask_get (by simp; omega) (by simp; omega) (by simp; omega)]
    congr 1
    by_cases hki : k < idx
    · rw [if_pos hki, List.getElem?_append_right (by simp; omega), List.getElem?_append_right (by simp; omega)]
      rw [List.getElem?_take_of_lt (by simp; omega), List.getElem?_take_of_lt (by simp; omega)]
      simp only [List.length_replicate]
      rw [show 16 - 1 - k - (16 - idx) = idx - 1 - k from by omega]
    · rw [if_neg hki, List.getElem?_append_left (by simp; omega), List.getElem?_append_left (by simp; omega)]
      simp
  · rw [if_neg hi]
    have hl : (compareMask 16 ((one.take idx).drop (idx - 16)) [] ((two.take idx).drop (idx - 16)) []).length = 16 := by
      simp [compareMask]; omega
    rw [List.getElem?_reverse (by omega), hl, compareMask_get (by simp; omega) (by simp; omega) (by simp; omega)]
    congr 1
    rw [if_pos (by omega), List.getElem?_drop, List.getElem?_drop, List.getElem?_take_of_lt (by omega), List.getElem?_take_of_lt (by omega)]
    rw [show idx - 16 + (16 - 1 - k) = idx - 1 - k from by omega]

theorem revMask_length {one two : List UInt8} {idx : Nat} (h1 : idx ≤ one.length) (h2 : idx ≤ two.length) : (revMask one two idx).length = 16 := by
  unfold revMask
  split <;> simp [compareMask] <;> omega

theorem takeWhile_false_spec (m : List Bool) :
    (∀ k, k < (m.takeWhile (fun b => !b)).length → m[k]? = some false) ∧
    (m.takeWhile (fun b => !b)).length ≤ m.length ∧
    ((m.takeWhile (fun b => !b)).length < m.length → m[(m.takeWhile (fun b => !b)).length]? = some true) := by
  induction m with
  | nil => simp
  | cons b m ih =>
    cases b with
    | true => simp
    | false =>
      simp only [List.takeWhile_cons, Bool.not_false, if_true, List.length_cons]
      obtain ⟨i1, i2, i3⟩ := ih
      refine ⟨?_, by omega, ?_⟩
      · intro k hk
        cases k with
        | zero => rfl
        | succ k => simpa using i1 k (by omega)
      · intro h
        simpa using i3 (by omega)

theorem neIdxRevLoop_spec {one two : List UInt8} (hl : one.length = two.length) (fuel : Nat) :
    ∀ idx, idx ≤ one.length → (∀ k, k < one.length - idx → one.reverse[k]? = two.reverse[k]?) → idx < fuel →
      ∃ r, neIdxRevLoop one two one.length fuel idx = some r ∧ IsFirstDifference one.reverse two.reverse r := by
  induction fuel with
  | zero => intro idx _ _ h; omega
  | succ fuel ih =>
    intro idx h1 h2 h3
    unfold neIdxRevLoop
    simp only
    have hm := revMask_length h1 (by omega : idx ≤ two.length)
    have hg := fun k (hk : k < 16) => revMask_get h1 (by omega : idx ≤ two.length) hk
    obtain ⟨t1, t2, t3⟩ := takeWhile_false_spec (revMask one two idx).reverse
    change _ ≤ _ at t2
    unfold leadingZeros16
    generalize ((revMask one two idx).reverse.takeWhile (fun b => !b)).length = i at t1 t2 t3 ⊢
    rw [List.length_reverse, hm] at t2 t3
    have rev : ∀ k, k < idx → (one.reverse[one.length - idx + k]? = one[idx - 1 - k]? ∧ two.reverse[one.length - idx + k]? = two[idx - 1 - k]?) := by
      intro k hk
      rw [List.getElem?_reverse (by omega), List.getElem?_reverse (by omega)]
      constructor <;> congr 1 <;> omega
    have same : ∀ k, k < i → k < idx → one.reverse[one.length - idx + k]? = two.reverse[one.length - idx + k]? := by
      intro k hk hki
      have a := t1 k hk
      rw [hg k (by omega), if_pos hki] at a
      rw [(rev k hki).1, (rev k hki).2]
      simpa using a
    by_cases hi : i = 16
    · rw [if_neg (by omega)]
      by_cases hidx : idx < 16
      · rw [if_pos hidx]
        refine ⟨none, rfl, ?_⟩
        intro k hk _
        by_cases hlt : k < one.length - idx
        · exact h2 k hlt
        · have := same (k - (one.length - idx)) (by simp at hk; omega) (by simp at hk; omega)
          rwa [Nat.add_sub_cancel' (by omega)] at this
      · rw [if_neg hidx]
        apply ih
        · omega
        · intro k hk
          by_cases hlt : k < one.length - idx
          · exact h2 k hlt
          · have := same (k - (one.length - idx)) (by omega) (by omega)
            rwa [Nat.add_sub_cancel' (by omega)] at this
        · omega
    · rw [if_pos (by omega)]
      have a := t3 (by omega)
      rw [hg i (by omega)] at a
      by_cases hki : i < idx
      · rw [if_pos hki] at a
        have u1 : usizeSub idx i = some (idx - i) := if_pos (by omega)
        have u2 : usizeSub one.length (idx - i) = some (one.length - (idx - i)) := if_pos (by omega)
        refine ⟨some (one.length - (idx - i)), by simp [u1, u2], by simp; omega, by simp; omega, ?_, ?_⟩
        · rw [show one.length - (idx - i) = one.length - idx + i from by omega, (rev i hki).1, (rev i hki).2]
          simpa using a
        · intro k hk
          by_cases hlt : k < one.length - idx
          · exact h2 k hlt
          · have := same (k - (one.length - idx)) (by omega) (by omega)
            rwa [Nat.add_sub_cancel' (by omega)] at this
      · rw [if_neg hki] at a
        simp at a

theorem firstDifference_take {a b a' b' : List UInt8} {n : Nat} {r : Option Nat} (ha : ∀ k, k < n → a[k]? = a'[k]?) (hb : ∀ k, k < n → b[k]? = b'[k]?)
    (h1 : n = min a.length b.length) (h2 : a'.length = n) (h3 : b'.length = n) (h : IsFirstDifference a' b' r) : IsFirstDifference a b r := by
  cases r with
  | none =>
    intro k hk hk'
    rw [ha k (by omega), hb k (by omega)]
    exact h k (by omega) (by omega)
  | some i =>
    obtain ⟨g1, g2, g3, g4⟩ := h
    refine ⟨by omega, by omega, ?_, ?_⟩
    · rw [ha i (by omega), hb i (by omega)]; exact g3
    · intro k hk
      rw [ha k (by omega), hb k (by omega)]; exact g4 k hk

theorem neIdxRevSse_spec (one two : List UInt8) : ∃ r, neIdxRevSse one two = some r ∧ IsFirstDifference one.reverse two.reverse r := by
  unfold neIdxRevSse
  simp only
  have e1 : (one.drop (one.length - min one.length two.length)).length = min one.length two.length := by simp; omega
  have e2 : (two.drop (two.length - min one.length two.length)).length = min one.length two.length := by simp; omega
  obtain ⟨r, g1, g2⟩ := neIdxRevLoop_spec (one := one.drop (one.length - min one.length two.length))
    (two := two.drop (two.length - min one.length two.length)) (by rw [e1, e2]) (min one.length two.length + 1)
    (min one.length two.length) (by omega) (by intro k hk; omega) (by omega)
  rw [e1] at g1
  refine ⟨r, g1, firstDifference_take (n := min one.length two.length) ?_ ?_ (by simp) (by simpa using e1) (by simpa using e2) g2⟩
  · intro k hk
    rw [List.getElem?_reverse (by omega), List.getElem?_reverse (by omega), List.getElem?_drop]
    congr 1; rw [e1]; omega
  · intro k hk
    rw [List.getElem?_reverse (by omega), List.getElem?_reverse (by omega), List.getElem?_drop]
    congr 1; rw [e2]; omega

/-! Common prefixes and suffixes -/

theorem exists_largest {P : Nat → Prop} (N : Nat) : (∃ r, P r) → (∀ r, P r → r ≤ N) → ∃ R, IsLargest P R := by
  induction N with
  | zero =>
    rintro ⟨r, hr⟩ h
    exact ⟨r, hr, fun r' hr' => by have := h r' hr'; omega⟩
  | succ N ih =>
    intro hex h
    by_cases hN : P (N + 1)
    · exact ⟨N + 1, hN, h⟩
    · refine ih hex (fun r hr => ?_)
      have := h r hr
      have : r ≠ N + 1 := fun e => hN (e ▸ hr)
      omega

theorem exists_largestPrefix (a b : List UInt8) : ∃ R, IsLargest (CommonPrefix a b) R :=
  exists_largest a.length ⟨0, by omega, by omega, by simp, by simpa using utf8_nil⟩ (fun _ h => h.1)

theorem exists_largestSuffix (a b : List UInt8) : ∃ R, IsLargest (CommonSuffix a b) R :=
  exists_largest a.length ⟨0, ⟨by omega, by omega, by simp⟩, by simpa using utf8_nil⟩ (fun _ h => h.1.1)

theorem commonPrefix_shift {p a b : List UInt8} (hp : Utf8 p) {r : Nat} :
    CommonPrefix (p ++ a) (p ++ b) (p.length + r) ↔ CommonPrefix a b r := by
  unfold CommonPrefix
  rw [List.take_length_add_append, List.take_length_add_append, List.append_cancel_left_eq, List.length_append, List.length_append]
  constructor
  · rintro ⟨h1, h2, h3, h4⟩
    exact ⟨by omega, by omega, h3, utf8_right hp h4⟩
  · rintro ⟨h1, h2, h3, h4⟩
    exact ⟨by omega, by omega, h3, utf8_append hp h4⟩

theorem largestPrefix_shift {p a b : List UInt8} (hp : Utf8 p) {r : Nat} (h : IsLargest (CommonPrefix a b) r) :
    IsLargest (CommonPrefix (p ++ a) (p ++ b)) (p.length + r) := by
  refine ⟨(commonPrefix_shift hp).2 h.1, fun r' hr' => ?_⟩
  by_cases hlt : r' < p.length
  · omega
  · rw [show r' = p.length + (r' - p.length) from by omega, commonPrefix_shift hp] at hr'
    have := h.2 _ hr'
    omega

theorem largestPrefix_nil {a b : List UInt8} (h : a = [] ∨ b = []) : IsLargest (CommonPrefix a b) 0 := by
  refine ⟨⟨by omega, by omega, by simp, by simpa using utf8_nil⟩, fun r hr => ?_⟩
  rcases h with rfl | rfl
  · simpa using hr.1
  · simpa using hr.2.1

/-- The first differing byte, and then back to a character boundary. -/
theorem largestPrefix_some {a b x y : List UInt8} (ha : Utf8 a) (hx : Utf8 x) {i : Nat} (h : neIdxFallback a b = some i) :
    IsLargest (CommonPrefix (a ++ x) (b ++ y)) (backToBoundary a i) := by
  have hs := neIdxFallback_spec a b
  rw [h] at hs
  obtain ⟨h1, h2, h3, h4⟩ := hs
  obtain ⟨g1, g2, g3, g4⟩ := backToBoundary_spec ha (i := i) (by omega)
  have gb := (boundary_iff ha).1 g3
  generalize backToBoundary a i = r at *
  have hab : ∀ k, k ≤ i → a.take k = b.take k := by
    intro k hk
    apply List.ext_getElem?
    intro n
    by_cases hn : n < k
    · rw [List.getElem?_take_of_lt hn, List.getElem?_take_of_lt hn, h4 n (by omega)]
    · rw [List.getElem?_eq_none (by simp; omega), List.getElem?_eq_none (by simp; omega)]
  refine ⟨⟨by simp; omega, by simp; omega, ?_, ?_⟩, ?_⟩
  · rw [List.take_append_of_le_length (by omega), List.take_append_of_le_length (by omega), hab r g1]
  · rw [List.take_append_of_le_length (by omega)]; exact gb.2.1
  · rintro r' ⟨k1, k2, k3, k4⟩
    by_cases hi : i < r'
    · exfalso
      apply h3
      have := congrArg (fun l => l[i]?) k3
      simp only [List.getElem?_take_of_lt hi] at this
      rwa [List.getElem?_append_left h1, List.getElem?_append_left h2] at this
    · by_cases hr : r < r'
      · exfalso
        have := g4 r' hr (by omega)
        rw [List.take_append_of_le_length (by omega)] at k4
        rw [(boundary_iff ha).2 ⟨by omega, k4, utf8_right k4 (by rw [List.take_append_drop]; exact ha)⟩] at this
        cases this
      · omega

theorem neIdx_none {a b : List UInt8} (h : neIdxFallback a b = none) :
    a.take (min b.length a.length) = b.take (min b.length a.length) := by
  have hs := neIdxFallback_spec a b
  rw [h] at hs
  apply List.ext_getElem?
  intro n
  by_cases hn : n < min b.length a.length
  · rw [List.getElem?_take_of_lt hn, List.getElem?_take_of_lt hn, hs n (by omega) (by omega)]
  · rw [List.getElem?_eq_none (by simp; omega), List.getElem?_eq_none (by simp; omega)]

/-- The chunks agree as far as both of them go: both can be cut there, and what is
found behind counts from there. -/
theorem largestPrefix_none {a b : List UInt8} (ha : Utf8 a) (hb : Utf8 b) (h : neIdxFallback a b = none) :
    Utf8 (a.take (min b.length a.length)) ∧ isCharBoundary a (min b.length a.length) = true ∧ isCharBoundary b (min b.length a.length) = true ∧
    Utf8 (a.drop (min b.length a.length)) ∧ Utf8 (b.drop (min b.length a.length)) ∧
    ∀ x y r, IsLargest (CommonPrefix (a.drop (min b.length a.length) ++ x) (b.drop (min b.length a.length) ++ y)) r →
      IsLargest (CommonPrefix (a ++ x) (b ++ y)) (min b.length a.length + r) := by
  have e := neIdx_none h
  have hk : min b.length a.length ≤ a.length := by omega
  have hk' : min b.length a.length ≤ b.length := by omega
  have u : Utf8 (a.take (min b.length a.length)) := by
    rcases Nat.le_total a.length b.length with hl | hl
    · rw [Nat.min_eq_right hl, List.take_length]; exact ha
    · rw [e, Nat.min_eq_left hl, List.take_length]; exact hb
  generalize min b.length a.length = k at *
  have u' := e ▸ u
  have da := utf8_right u (by rw [List.take_append_drop]; exact ha)
  have db := utf8_right u' (by rw [List.take_append_drop]; exact hb)
  refine ⟨u, (boundary_iff ha).2 ⟨hk, u, da⟩, (boundary_iff hb).2 ⟨hk', u', db⟩, da, db, ?_⟩
  intro x y r hr
  have := largestPrefix_shift u hr
  rw [List.length_take, Nat.min_eq_left hk, ← List.append_assoc, List.take_append_drop, ← List.append_assoc, e, List.take_append_drop] at this
  exact this

theorem sameSuffix_shift {p a b : List UInt8} {r : Nat} :
    SameSuffix (a ++ p) (b ++ p) (p.length + r) ↔ SameSuffix a b r := by
  unfold SameSuffix
  rw [List.length_append, List.length_append, show a.length + p.length - (p.length + r) = a.length - r from by omega,
    show b.length + p.length - (p.length + r) = b.length - r from by omega, List.drop_append_of_le_length (by omega),
    List.drop_append_of_le_length (by omega), List.append_cancel_right_eq]
  constructor <;> rintro ⟨h1, h2, h3⟩ <;> exact ⟨by omega, by omega, h3⟩

theorem commonSuffix_shift {p a b : List UInt8} (hp : Utf8 p) {r : Nat} :
    CommonSuffix (a ++ p) (b ++ p) (p.length + r) ↔ CommonSuffix a b r := by
  unfold CommonSuffix
  rw [sameSuffix_shift, List.length_append, show a.length + p.length - (p.length + r) = a.length - r from by omega,
    List.drop_append_of_le_length (by omega)]
  constructor
  · rintro ⟨h1, h2⟩
    exact ⟨h1, utf8_left hp h2⟩
  · rintro ⟨h1, h2⟩
    exact ⟨h1, utf8_append h2 hp⟩

theorem largestSuffix_shift {p a b : List UInt8} (hp : Utf8 p) {r : Nat} (h : IsLargest (CommonSuffix a b) r) :
    IsLargest (CommonSuffix (a ++ p) (b ++ p)) (p.length + r) := by
  refine ⟨(commonSuffix_shift hp).2 h.1, fun r' hr' => ?_⟩
  by_cases hlt : r' < p.length
  · omega
  · rw [show r' = p.length + (r' - p.length) from by omega, commonSuffix_shift hp] at hr'
    have := h.2 _ hr'
    omega

theorem largestSuffix_nil {a b : List UInt8} (h : a = [] ∨ b = []) : IsLargest (CommonSuffix a b) 0 := by
  refine ⟨⟨⟨by omega, by omega, by simp⟩, by simpa using utf8_nil⟩, fun r hr => ?_⟩
  rcases h with rfl | rfl
  · simpa using hr.1.1
  · simpa using hr.1.2.1

theorem roundBack_le (a : List UInt8) (i : Nat) : RopeScanner.roundBack a i ≤ i := by
  induction i with
  | zero => simp [RopeScanner.roundBack]
  | succ i ih =>
    cases i with
    | zero => simp [RopeScanner.roundBack]
    | succ i =>
      unfold RopeScanner.roundBack
      split
      · omega
      · omega

theorem roundBack_spec {a : List UInt8} {i k : Nat} (hk : 1 ≤ k) (hki : k ≤ i) (hb : isCharBoundary a (a.length - k) = true) :
    isCharBoundary a (a.length - RopeScanner.roundBack a i) = true ∧
      ∀ j, j ≤ i → isCharBoundary a (a.length - j) = true → j ≤ RopeScanner.roundBack a i := by
  induction i with
  | zero => omega
  | succ i ih =>
    cases i with
    | zero =>
      have : k = 1 := by omega
      subst this
      simp only [RopeScanner.roundBack]
      exact ⟨hb, fun j hj _ => hj⟩
    | succ i =>
      unfold RopeScanner.roundBack
      by_cases h : isCharBoundary a (a.length - (i + 2)) = true
      · rw [if_pos h]
        exact ⟨h, fun j hj _ => hj⟩
      · rw [if_neg h]
        have hne : k ≠ i + 2 := fun e => h (e ▸ hb)
        obtain ⟨h1, h2⟩ := ih (by omega)
        refine ⟨h1, fun j hj hbj => h2 j ?_ hbj⟩
        have : j ≠ i + 2 := fun e => h (e ▸ hbj)
        omega

theorem neIdxRev_some {a b : List UInt8} {i : Nat} (h : neIdxRevFallback a b = some i) :
    i < a.length ∧ i < b.length ∧ a[a.length - 1 - i]? ≠ b[b.length - 1 - i]? ∧ ∀ k, k ≤ i → a.drop (a.length - k) = b.drop (b.length - k) := by
  have hs := neIdxFallback_spec a.reverse b.reverse
  unfold neIdxRevFallback at h
  rw [h] at hs
  obtain ⟨h1, h2, h3, h4⟩ := hs
  rw [List.length_reverse] at h1 h2
  rw [List.getElem?_reverse h1, List.getElem?_reverse h2] at h3
  refine ⟨h1, h2, h3, ?_⟩
  intro k hk
  apply List.ext_getElem?
  intro n
  rw [List.getElem?_drop, List.getElem?_drop]
  by_cases hn : n < k
  · have := h4 (k - 1 - n) (by omega)
    rw [List.getElem?_reverse (by omega), List.getElem?_reverse (by omega)] at this
    rw [show a.length - 1 - (k - 1 - n) = a.length - k + n from by omega, show b.length - 1 - (k - 1 - n) = b.length - k + n from by omega] at this
    exact this
  · rw [List.getElem?_eq_none (by omega), List.getElem?_eq_none (by omega)]

theorem neIdxRev_none {a b : List UInt8} (h : neIdxRevFallback a b = none) :
    a.drop (a.length - min b.length a.length) = b.drop (b.length - min b.length a.length) := by
  unfold neIdxRevFallback at h
  have := neIdx_none h
  rw [List.length_reverse, List.length_reverse] at this
  rw [← List.reverse_inj, List.reverse_drop, List.reverse_drop]
  rw [show a.length - (a.length - min b.length a.length) = min b.length a.length from by omega,
    show b.length - (b.length - min b.length a.length) = min b.length a.length from by omega]
  exact this

theorem last_char {a : List UInt8} (ha : Utf8 a) (h : a ≠ []) : ∃ p c, a = p ++ String.utf8EncodeChar c ∧ Utf8 p := by
  obtain ⟨cs, rfl⟩ := ha
  rcases List.eq_nil_or_concat cs with rfl | ⟨cs, c, rfl⟩
  · simp at h
  · exact ⟨cs.flatMap String.utf8EncodeChar, c, by simp, cs, rfl⟩

/-- What `find_ne_char_back` goes back to is a common suffix, though it may begin
inside a character. -/
theorem sameSuffix_some {a b x y : List UInt8} {i : Nat} (h : neIdxRevFallback a b = some i) :
    SameSuffix (x ++ a) (y ++ b) (RopeScanner.roundBack a i) := by
  obtain ⟨h1, h2, -, h4⟩ := neIdxRev_some h
  have hr := roundBack_le a i
  refine ⟨by simp; omega, by simp; omega, ?_⟩
  have := h4 _ hr
  rw [List.length_append, List.length_append, show x.length + a.length - RopeScanner.roundBack a i = x.length + (a.length - RopeScanner.roundBack a i) from by omega,
    show y.length + b.length - RopeScanner.roundBack a i = y.length + (b.length - RopeScanner.roundBack a i) from by omega,
    List.drop_length_add_append, List.drop_length_add_append]
  exact this

theorem largestSuffix_some {a b x y : List UInt8} (ha : Utf8 a) (hb : Utf8 b) (hx : Utf8 x) {i : Nat}
    (hd : LastBytesApart a b) (h : neIdxRevFallback a b = some i) :
    IsLargest (CommonSuffix (x ++ a) (y ++ b)) (RopeScanner.roundBack a i) := by
  obtain ⟨h1, h2, h3, h4⟩ := neIdxRev_some h
  have hr := roundBack_le a i
  have hl : ∀ k, k ≤ a.length → (x ++ a).drop ((x ++ a).length - k) = a.drop (a.length - k) := by
    intro k hk
    rw [List.length_append, show x.length + a.length - k = x.length + (a.length - k) from by omega, List.drop_length_add_append]
  have hl' : ∀ k, k ≤ b.length → (y ++ b).drop ((y ++ b).length - k) = b.drop (b.length - k) := by
    intro k hk
    rw [List.length_append, show y.length + b.length - k = y.length + (b.length - k) from by omega, List.drop_length_add_append]
  have key : isCharBoundary a (a.length - RopeScanner.roundBack a i) = true ∧
      ∀ j, j ≤ i → isCharBoundary a (a.length - j) = true → j ≤ RopeScanner.roundBack a i := by
    by_cases hi : i = 0
    · subst hi
      simp only [RopeScanner.roundBack, Nat.sub_zero]
      exact ⟨boundary_length, fun j hj _ => hj⟩
    · obtain ⟨p, c, rfl, hp⟩ := last_char ha (by intro e; rw [e] at h1; simp at h1)
      obtain ⟨q, d, rfl, hq⟩ := last_char hb (by intro e; rw [e] at h2; simp at h2)
      have hpos : ∀ e : Char, 1 ≤ (String.utf8EncodeChar e).length := by
        intro e
        obtain ⟨z, r, e1, -⟩ := encode_shape e
        rw [e1]; simp
      have e1 := h4 1 (by omega)
      have hlast : (String.utf8EncodeChar c).getLast? = (String.utf8EncodeChar d).getLast? := by
        have l1 : ∀ (p e : List UInt8), 1 ≤ e.length → (p ++ e).drop ((p ++ e).length - 1) = e.drop (e.length - 1) := by
          intro p e he
          rw [List.length_append, show p.length + e.length - 1 = p.length + (e.length - 1) from by omega, List.drop_length_add_append]
        rw [l1 _ _ (hpos c), l1 _ _ (hpos d)] at e1
        have := congrArg List.getLast? e1
        rwa [List.getLast?_drop, List.getLast?_drop, if_neg (by have := hpos c; omega), if_neg (by have := hpos d; omega)] at this
      have hcd := hd c d ⟨p, [], by simp, hp, utf8_nil⟩ ⟨q, [], by simp, hq, utf8_nil⟩ hlast
      subst hcd
      refine roundBack_spec (hpos c) ?_ ?_
      · apply Nat.le_of_not_lt
        intro hlt
        apply h3
        rw [List.length_append, List.length_append, List.getElem?_append_right (by omega), List.getElem?_append_right (by omega)]
        congr 1
        omega
      · rw [List.length_append, Nat.add_sub_cancel]
        exact boundary_append ⟨[c], by simp⟩
  refine ⟨⟨sameSuffix_some h, ?_⟩, ?_⟩
  · rw [hl _ (by omega)]
    exact ((boundary_iff ha).1 key.1).2.2
  · rintro r' ⟨⟨k1, k2, k3⟩, k4⟩
    by_cases hi : i < r'
    · exfalso
      apply h3
      have g1 := congrArg (fun l => l[r' - 1 - i]?) k3
      simp only [List.getElem?_drop, List.length_append] at g1 k1 k2
      rw [show x.length + a.length - r' + (r' - 1 - i) = x.length + (a.length - 1 - i) from by omega,
        show y.length + b.length - r' + (r' - 1 - i) = y.length + (b.length - 1 - i) from by omega,
        List.getElem?_append_right (by omega), List.getElem?_append_right (by omega)] at g1
      rwa [Nat.add_sub_cancel_left, Nat.add_sub_cancel_left] at g1
    · refine key.2 r' (by omega) ?_
      rw [hl _ (by omega)] at k4
      refine (boundary_iff ha).2 ⟨by omega, ?_, k4⟩
      exact utf8_left k4 (by rw [List.take_append_drop]; exact ha)

theorem largestSuffix_none {a b : List UInt8} (ha : Utf8 a) (hb : Utf8 b) (h : neIdxRevFallback a b = none) :
    isCharBoundary a (a.length - min b.length a.length) = true ∧ isCharBoundary b (b.length - min b.length a.length) = true ∧
    Utf8 (a.take (a.length - min b.length a.length)) ∧ Utf8 (b.take (b.length - min b.length a.length)) ∧
    (∀ x y r, SameSuffix (x ++ a.take (a.length - min b.length a.length)) (y ++ b.take (b.length - min b.length a.length)) r →
      SameSuffix (x ++ a) (y ++ b) (min b.length a.length + r)) ∧
    (∀ x y r, IsLargest (CommonSuffix (x ++ a.take (a.length - min b.length a.length)) (y ++ b.take (b.length - min b.length a.length))) r →
      IsLargest (CommonSuffix (x ++ a) (y ++ b)) (min b.length a.length + r)) := by
  have e := neIdxRev_none h
  have hk : min b.length a.length ≤ a.length := by omega
  have hk' : min b.length a.length ≤ b.length := by omega
  have u : Utf8 (a.drop (a.length - min b.length a.length)) := by
    rcases Nat.le_total a.length b.length with hl | hl
    · rw [Nat.min_eq_right hl, Nat.sub_self]; exact ha
    · rw [e, Nat.min_eq_left hl, Nat.sub_self]; exact hb
  generalize min b.length a.length = k at *
  have u' := e ▸ u
  have da := utf8_left u (by rw [List.take_append_drop]; exact ha)
  have db := utf8_left u' (by rw [List.take_append_drop]; exact hb)
  have hl : (a.drop (a.length - k)).length = k := by simp; omega
  refine ⟨(boundary_iff ha).2 ⟨by omega, da, u⟩, (boundary_iff hb).2 ⟨by omega, db, u'⟩, da, db, ?_, ?_⟩
  · intro x y r hr
    have := (sameSuffix_shift (p := a.drop (a.length - k))).2 hr
    rw [hl, List.append_assoc, List.take_append_drop, List.append_assoc, e, List.take_append_drop] at this
    exact this
  · intro x y r hr
    have := largestSuffix_shift u hr
    rw [hl, List.append_assoc, List.take_append_drop, List.append_assoc, e, List.take_append_drop] at this
    exact this

end Compare

namespace RopeScanner

open Compare Cursor Find

theorem minStop_reached {stop : Option Nat} {n r : Nat} (h : stopReached stop n = true) : minStop stop n = minStop stop (n + r) := by
  cases stop with
  | none => simp [stopReached] at h
  | some s => simp only [stopReached, decide_eq_true_eq] at h; simp only [minStop]; omega

/-- The cursor is in the rope `r`; `chunk` is what is still to be compared of its
leaf going forward, `post` are the leaves after it. -/
structure Ahead (r : Rope) (c : RopeCursor) (chunk : List UInt8) (post : List (List UInt8)) : Prop where
  root : c.root = r
  at' : ∃ pre l, c.At pre l post
  utf8 : Utf8 chunk
  rest : Utf8 (joined post)

theorem Ahead.alive {r : Rope} {c : RopeCursor} {chunk : List UInt8} {post : List (List UInt8)} (h : Ahead r c chunk post) : Alive r c := by
  obtain ⟨pre, l, ha⟩ := h.at'
  rw [← h.root]
  exact Alive.of_at ha

theorem at_utf8 {c : RopeCursor} {pre post : List (List UInt8)} {l : List UInt8} (h : c.At pre l post) :
    Utf8 (joined pre) ∧ Utf8 l ∧ Utf8 (joined post) := by
  obtain ⟨n, hw⟩ := h.balanced
  have hok : ∀ x ∈ pre ++ l :: post, LeafSpec.ok (L := List UInt8) x := by
    rw [← h.leaves]; exact leaf_ok hw
  exact ⟨leaves_utf8 (fun x hx => hok x (by simp [hx])), (hok l (by simp)).1, leaves_utf8 (fun x hx => hok x (by simp [hx]))⟩

theorem loadNext_some {r : Rope} {c : RopeCursor} {m : List UInt8} {post : List (List UInt8)} (h : Ahead r c [] (m :: post)) :
    ∃ c', loadNext c [] = some (c', m) ∧ Ahead r c' m post := by
  obtain ⟨pre, l, ha⟩ := h.at'
  obtain ⟨c', e, h1, h2, -⟩ := nextLeaf_some ha
  exact ⟨c', by simp [loadNext, e], by rw [h2]; exact h.root, ⟨_, _, h1⟩, (at_utf8 h1).2.1, (at_utf8 h1).2.2⟩

theorem loadNext_none {r : Rope} {c : RopeCursor} (h : Ahead r c [] []) :
    ∃ c', loadNext c [] = some (c', []) ∧ Alive r c' := by
  obtain ⟨pre, l, ha⟩ := h.at'
  obtain ⟨c', e, h1, h2, h3, -⟩ := nextLeaf_none ha
  exact ⟨c', by simp [loadNext, e], by rw [h3]; exact h.root, h2, .inl h1⟩

theorem loadNext_full {c : RopeCursor} {chunk : List UInt8} (h : chunk ≠ []) : loadNext c chunk = some (c, chunk) := by
  simp [loadNext, h]

/-- What `load_next_chunk` does with one of the two. -/
theorem loadNext_spec {r : Rope} {c : RopeCursor} {chunk : List UInt8} {post : List (List UInt8)} (h : Ahead r c chunk post)
    (hpos : ∀ m ∈ post, m ≠ []) :
    ∃ c' chunk' , loadNext c chunk = some (c', chunk') ∧ Alive r c' ∧
      ((chunk' = [] ∧ chunk ++ joined post = []) ∨
       (chunk' ≠ [] ∧ ∃ post', Ahead r c' chunk' post' ∧ (∀ m ∈ post', m ≠ []) ∧ chunk' ++ joined post' = chunk ++ joined post ∧ post'.length ≤ post.length ∧
          (chunk = [] → post'.length < post.length))) := by
  by_cases hc : chunk = []
  · subst hc
    cases post with
    | nil =>
      obtain ⟨c', e, h1⟩ := loadNext_none h
      exact ⟨c', [], e, h1, .inl ⟨rfl, rfl⟩⟩
    | cons m post =>
      obtain ⟨c', e, h1⟩ := loadNext_some h
      exact ⟨c', m, e, h1.alive, .inr ⟨hpos m (by simp), post, h1, fun x hx => hpos x (by simp [hx]), by rw [joined_cons]; rfl, by simp, by simp⟩⟩
  · exact ⟨c, chunk, loadNext_full hc, h.alive, .inr ⟨hc, post, h, hpos, rfl, Nat.le_refl _, fun e => absurd e hc⟩⟩

theorem forwardLoop_spec {rb rt : Rope} (stop : Option Nat) (fuel : Nat) : ∀ (s : RopeScanner) (pb pt : List (List UInt8)),
    Ahead rb s.base s.baseChunk pb → Ahead rt s.target s.targetChunk pt → (∀ m ∈ pb, m ≠ []) → (∀ m ∈ pt, m ≠ []) →
    pb.length + pt.length < fuel →
    ∃ s' r R, forwardLoop stop fuel s = some (s', r) ∧ Alive rb s'.base ∧ Alive rt s'.target ∧
      IsLargest (CommonPrefix (s.baseChunk ++ joined pb) (s.targetChunk ++ joined pt)) R ∧ r = minStop stop (s.scanned + R) := by
  induction fuel with
  | zero => intro s pb pt _ _ _ _ h; omega
  | succ fuel ih =>
    intro s pb pt hb ht hpb hpt hf
    obtain ⟨cb, ct, bc, tc, n⟩ := s
    simp only at hb ht
    unfold forwardLoop
    simp only
    cases e : neIdxFallback bc tc with
    | some i => exact ⟨_, _, _, rfl, hb.alive, ht.alive, largestPrefix_some hb.utf8 hb.rest e, rfl⟩
    | none =>
      simp only
      obtain ⟨u1, u2, u3, u4, u5, u6⟩ := largestPrefix_none hb.utf8 ht.utf8 e
      rw [strSlice_spec (by omega) u2 boundary_length, strSlice_spec (by omega) u3 boundary_length]
      rw [List.take_length, List.take_length]
      have hor : bc.drop (min tc.length bc.length) = [] ∨ tc.drop (min tc.length bc.length) = [] := by
        rw [List.drop_eq_nil_iff, List.drop_eq_nil_iff]; omega
      generalize hk : min tc.length bc.length = k at *
      simp only [Option.bind_eq_bind, Option.bind_some, Option.pure_def]
      have hb' : Ahead rb cb (bc.drop k) pb := ⟨hb.root, hb.at', u4, hb.rest⟩
      have ht' : Ahead rt ct (tc.drop k) pt := ⟨ht.root, ht.at', u5, ht.rest⟩
      by_cases hs : stopReached stop (n + k) = true
      · rw [if_pos hs]
        obtain ⟨R, hR⟩ := exists_largestPrefix (bc.drop k ++ joined pb) (tc.drop k ++ joined pt)
        refine ⟨_, _, k + R, rfl, hb.alive, ht.alive, u6 _ _ _ hR, ?_⟩
        rw [← Nat.add_assoc]
        exact minStop_reached hs
      · rw [if_neg hs]
        obtain ⟨cb', bc', e1, a1, h1⟩ := loadNext_spec hb' hpb
        obtain ⟨ct', tc', e2, a2, h2⟩ := loadNext_spec ht' hpt
        simp only [loadNextChunk, e1, e2, Option.bind_eq_bind, Option.bind_some, Option.pure_def]
        by_cases hemp : (bc'.isEmpty || tc'.isEmpty) = true
        · rw [if_pos hemp]
          refine ⟨_, _, k + 0, rfl, a1, a2, u6 _ _ _ (largestPrefix_nil ?_), rfl⟩
          simp only [Bool.or_eq_true, List.isEmpty_iff] at hemp
          rcases hemp with hemp | hemp
          · rcases h1 with h1 | h1
            · exact .inl h1.2
            · exact absurd hemp h1.1
          · rcases h2 with h2 | h2
            · exact .inr h2.2
            · exact absurd hemp h2.1
        · rw [if_neg hemp]
          simp only [Bool.or_eq_true, List.isEmpty_iff, not_or] at hemp
          rcases h1 with h1 | ⟨-, pb', g1, g2, g3, g4, g5⟩
          · exact absurd h1.1 hemp.1
          rcases h2 with h2 | ⟨-, pt', k1, k2, k3, k4, k5⟩
          · exact absurd h2.1 hemp.2
          obtain ⟨s', r, R, q1, q2, q3, q4, q5⟩ := ih ⟨cb', ct', bc', tc', n + k⟩ pb' pt' g1 k1 g2 k2 (by
            rcases hor with h | h
            · have := g5 h; omega
            · have := k5 h; omega)
          refine ⟨s', r, k + R, q1, q2, q3, u6 _ _ _ ?_, ?_⟩
          · rw [← g3, ← k3]; exact q4
          · rw [q5, Nat.add_assoc]

theorem stopReached_false {stop : Option Nat} {n : Nat} (h : ¬ stopReached stop n = true) : minStop stop n = n := by
  cases stop with
  | none => rfl
  | some s => simp only [stopReached, decide_eq_true_eq] at h; simp only [minStop]; omega

/-- The cursor is in the rope `r`; `chunk` is what is still to be compared of its
leaf going backward, `pre` are the leaves before it. -/
structure Behind (r : Rope) (c : RopeCursor) (chunk : List UInt8) (pre : List (List UInt8)) : Prop where
  root : c.root = r
  at' : ∃ l post, c.At pre l post
  utf8 : Utf8 chunk
  rest : Utf8 (joined pre)
  inside : ∃ y, Utf8 y ∧ r.text = joined pre ++ (chunk ++ y)

theorem Behind.alive {r : Rope} {c : RopeCursor} {chunk : List UInt8} {pre : List (List UInt8)} (h : Behind r c chunk pre) : Alive r c := by
  obtain ⟨l, post, ha⟩ := h.at'
  rw [← h.root]
  exact Alive.of_at ha

theorem Behind.hasChar {r : Rope} {c : RopeCursor} {chunk : List UInt8} {pre : List (List UInt8)} (h : Behind r c chunk pre) {d : Char}
    (hd : HasChar chunk d) : HasChar r.text d := by
  obtain ⟨y, hy, e⟩ := h.inside
  obtain ⟨p, q, rfl, hp, hq⟩ := hd
  exact ⟨joined pre ++ p, q ++ y, by rw [e]; simp, utf8_append h.rest hp, utf8_append hq hy⟩

theorem loadPrev_some {r : Rope} {c : RopeCursor} {m : List UInt8} {pre : List (List UInt8)} (h : Behind r c [] (pre ++ [m])) :
    ∃ c', loadPrev c [] = some (c', m) ∧ Behind r c' m pre := by
  obtain ⟨l, post, ha⟩ := h.at'
  obtain ⟨c', e, h1, h2, -⟩ := prevLeaf_some ha
  have hr : c'.root = r := by rw [h2]; exact h.root
  refine ⟨c', by simp [loadPrev, e], hr, ⟨_, _, h1⟩, (at_utf8 h1).2.1, (at_utf8 h1).1, joined (l :: post), (at_utf8 h1).2.2, ?_⟩
  rw [← hr]; exact h1.text

theorem loadPrev_none {r : Rope} {c : RopeCursor} (h : Behind r c [] []) :
    ∃ c', loadPrev c [] = some (c', []) ∧ Alive r c' := by
  obtain ⟨l, post, ha⟩ := h.at'
  obtain ⟨c', e, h1, h2, h3, -⟩ := prevLeaf_none ha
  exact ⟨c', by simp [loadPrev, e], by rw [h3]; exact h.root, h2, .inl h1⟩

theorem loadPrev_full {c : RopeCursor} {chunk : List UInt8} (h : chunk ≠ []) : loadPrev c chunk = some (c, chunk) := by
  simp [loadPrev, h]

/-- What `load_prev_chunk` does with one of the two. -/
theorem loadPrev_spec {r : Rope} {c : RopeCursor} {chunk : List UInt8} {pre : List (List UInt8)} (h : Behind r c chunk pre)
    (hpos : ∀ m ∈ pre, m ≠ []) :
    ∃ c' chunk' , loadPrev c chunk = some (c', chunk') ∧ Alive r c' ∧
      ((chunk' = [] ∧ joined pre ++ chunk = []) ∨
       (chunk' ≠ [] ∧ ∃ pre', Behind r c' chunk' pre' ∧ (∀ m ∈ pre', m ≠ []) ∧ joined pre' ++ chunk' = joined pre ++ chunk ∧ pre'.length ≤ pre.length ∧
          (chunk = [] → pre'.length < pre.length))) := by
  by_cases hc : chunk = []
  · subst hc
    rcases List.eq_nil_or_concat pre with rfl | ⟨pre, m, rfl⟩
    · obtain ⟨c', e, h1⟩ := loadPrev_none h
      exact ⟨c', [], e, h1, .inl ⟨rfl, rfl⟩⟩
    · rw [List.concat_eq_append] at *
      obtain ⟨c', e, h1⟩ := loadPrev_some h
      exact ⟨c', m, e, h1.alive, .inr ⟨hpos m (by simp), pre, h1, fun x hx => hpos x (by simp [hx]), by rw [joined_append]; simp [joined]; rfl, by simp, by simp⟩⟩
  · exact ⟨c, chunk, loadPrev_full hc, h.alive, .inr ⟨hc, pre, h, hpos, rfl, Nat.le_refl _, fun e => absurd e hc⟩⟩

theorem backLoop_spec {rb rt : Rope} (stop : Option Nat) (fuel : Nat) : ∀ (s : RopeScanner) (pb pt : List (List UInt8)),
    Behind rb s.base s.baseChunk pb → Behind rt s.target s.targetChunk pt → (∀ m ∈ pb, m ≠ []) → (∀ m ∈ pt, m ≠ []) →
    pb.length + pt.length < fuel →
    ∃ s' r R, backLoop stop fuel s = some (s', r) ∧ Alive rb s'.base ∧ Alive rt s'.target ∧
      SameSuffix (joined pb ++ s.baseChunk) (joined pt ++ s.targetChunk) R ∧
      (LastBytesApart rb.text rt.text → IsLargest (CommonSuffix (joined pb ++ s.baseChunk) (joined pt ++ s.targetChunk)) R) ∧
      r = minStop stop (s.scanned + R) := by
  induction fuel with
  | zero => intro s pb pt _ _ _ _ h; omega
  | succ fuel ih =>
    intro s pb pt hb ht hpb hpt hf
    obtain ⟨cb, ct, bc, tc, n⟩ := s
    simp only at hb ht
    unfold backLoop
    simp only
    cases e : neIdxRevFallback bc tc with
    | some i =>
      exact ⟨_, _, _, rfl, hb.alive, ht.alive, sameSuffix_some e, fun hd => largestSuffix_some hb.utf8 ht.utf8 hb.rest
        (fun c d hc hd' => hd c d (hb.hasChar hc) (ht.hasChar hd')) e, rfl⟩
    | none =>
      simp only
      obtain ⟨u2, u3, u4, u5, u6, u7⟩ := largestSuffix_none hb.utf8 ht.utf8 e
      rw [strSlice_spec (by omega) boundary_zero u2, strSlice_spec (by omega) boundary_zero u3]
      rw [List.drop_zero, List.drop_zero]
      have hor : bc.take (bc.length - min tc.length bc.length) = [] ∨ tc.take (tc.length - min tc.length bc.length) = [] := by
        rcases Nat.le_total bc.length tc.length with h | h
        · left; rw [Nat.min_eq_right h, Nat.sub_self]; rfl
        · right; rw [Nat.min_eq_left h, Nat.sub_self]; rfl
      have hb1 : Utf8 (bc.drop (bc.length - min tc.length bc.length)) := ((boundary_iff hb.utf8).1 u2).2.2
      have ht1 : Utf8 (tc.drop (tc.length - min tc.length bc.length)) := ((boundary_iff ht.utf8).1 u3).2.2
      generalize hk : min tc.length bc.length = k at *
      simp only [Option.bind_eq_bind, Option.bind_some, Option.pure_def]
      have hb' : Behind rb cb (bc.take (bc.length - k)) pb := by
        refine ⟨hb.root, hb.at', u4, hb.rest, ?_⟩
        obtain ⟨y, hy, e⟩ := hb.inside
        refine ⟨bc.drop (bc.length - k) ++ y, utf8_append hb1 hy, ?_⟩
        rw [e, ← List.append_assoc (bc.take _), List.take_append_drop]
      have ht' : Behind rt ct (tc.take (tc.length - k)) pt := by
        refine ⟨ht.root, ht.at', u5, ht.rest, ?_⟩
        obtain ⟨y, hy, e⟩ := ht.inside
        refine ⟨tc.drop (tc.length - k) ++ y, utf8_append ht1 hy, ?_⟩
        rw [e, ← List.append_assoc (tc.take _), List.take_append_drop]
      by_cases hs : stopReached stop (n + k) = true
      · rw [if_pos hs]
        obtain ⟨R, hR⟩ := exists_largestSuffix (joined pb ++ bc.take (bc.length - k)) (joined pt ++ tc.take (tc.length - k))
        refine ⟨_, _, k + R, rfl, hb.alive, ht.alive, u6 _ _ _ hR.1.1, fun _ => u7 _ _ _ hR, ?_⟩
        rw [← Nat.add_assoc]
        exact minStop_reached hs
      · rw [if_neg hs]
        obtain ⟨cb', bc', e1, a1, h1⟩ := loadPrev_spec hb' hpb
        obtain ⟨ct', tc', e2, a2, h2⟩ := loadPrev_spec ht' hpt
        simp only [loadPrevChunk, e1, e2, Option.bind_eq_bind, Option.bind_some, Option.pure_def]
        by_cases hemp : (bc'.isEmpty || tc'.isEmpty) = true
        · rw [if_pos hemp]
          have h0 : IsLargest (CommonSuffix (joined pb ++ bc.take (bc.length - k)) (joined pt ++ tc.take (tc.length - k))) 0 := by
            apply largestSuffix_nil
            simp only [Bool.or_eq_true, List.isEmpty_iff] at hemp
            rcases hemp with hemp | hemp
            · rcases h1 with h1 | h1
              · exact .inl h1.2
              · exact absurd hemp h1.1
            · rcases h2 with h2 | h2
              · exact .inr h2.2
              · exact absurd hemp h2.1
          exact ⟨_, _, k + 0, rfl, a1, a2, u6 _ _ _ h0.1.1, fun _ => u7 _ _ _ h0, rfl⟩
        · rw [if_neg hemp]
          simp only [Bool.or_eq_true, List.isEmpty_iff, not_or] at hemp
          rcases h1 with h1 | ⟨-, pb', g1, g2, g3, g4, g5⟩
          · exact absurd h1.1 hemp.1
          rcases h2 with h2 | ⟨-, pt', k1, k2, k3, k4, k5⟩
          · exact absurd h2.1 hemp.2
          obtain ⟨s', r, R, q1, q2, q3, q4, q4', q5⟩ := ih ⟨cb', ct', bc', tc', n + k⟩ pb' pt' g1 k1 g2 k2 (by
            rcases hor with h | h
            · have := g5 h; omega
            · have := k5 h; omega)
          refine ⟨s', r, k + R, q1, q2, q3, u6 _ _ _ ?_, fun hd => u7 _ _ _ ?_, ?_⟩
          · rw [← g3, ← k3]; exact q4
          · rw [← g3, ← k3]; exact q4' hd
          · rw [q5, Nat.add_assoc]

theorem count_le {ls : List (List UInt8)} (h : ∀ m ∈ ls, m ≠ []) : ls.length ≤ lenOf ls := by
  induction ls with
  | nil => simp
  | cons l ls ih =>
    rw [lenOf_cons, List.length_cons]
    have h1 := ih (fun m hm => h m (by simp [hm]))
    have h2 := List.length_pos_iff.2 (h l (by simp))
    change _ ≤ l.length + _
    omega

/-- Setting a cursor, and the leaf it is in. -/
theorem set_leaf {r : Rope} {c : RopeCursor} (ha : Alive r c) {off : Nat} (hb : CharBoundary r.text off) :
    ∃ c' pre l post k, c.set off = some c' ∧ c'.root = r ∧ c'.At pre l post ∧ c'.getLeaf = some (some (l, k)) ∧ isCharBoundary l k = true ∧
      k ≤ l.length ∧ r.text.drop off = l.drop k ++ joined post ∧ r.text.take off = joined pre ++ l.take k ∧
      (∀ m ∈ post, m ≠ []) ∧ (∀ m ∈ pre, m ≠ []) ∧ pre.length ≤ r.len ∧ post.length ≤ r.len := by
  obtain ⟨hr, hs, hl⟩ := ha
  subst hr
  have hbal := hs.balanced
  have hu := Rope.text_utf8 hbal
  have hbb := (boundary_iff_spec hu).2 hb
  have hle := ((boundary_iff hu).1 hbb).1
  obtain ⟨c', pre, l, post, e, hv, h1, h2⟩ := set_spec hs hl hle
  have hlo := hv.lo
  have hhi : c'.position ≤ lenOf pre + l.length := by
    rcases hv.hi with h | ⟨-, h⟩
    · exact Nat.le_of_lt h
    · exact Nat.le_of_eq h
  rw [h2] at hlo hhi
  have hoff := hv.toAt.off
  have hpost : ∀ m ∈ post, m ≠ [] := by
    intro m hm e
    have := hv.toAt.pos (.inr (by intro h; rw [h] at hm; cases hm)) m (by simp [hm])
    rw [e] at this
    exact Nat.lt_irrefl _ this
  have hpre : ∀ m ∈ pre, m ≠ [] := by
    intro m hm e
    have := hv.toAt.pos (.inl (by intro h; rw [h] at hm; cases hm)) m (by simp [hm])
    rw [e] at this
    exact Nat.lt_irrefl _ this
  have hlen := hv.toAt.rootLen
  rw [h1] at hlen
  have htext := hv.toAt.text
  rw [h1] at htext
  refine ⟨c', pre, l, post, off - lenOf pre, e, h1, hv.toAt, ?_, ?_, by omega, ?_, ?_, hpost, hpre, ?_, ?_⟩
  · simp only [getLeaf, hv.toAt.leaf, hoff, h2]
    rw [if_pos hlo]
  · exact hv.toAt.boundary (by rw [h1]; exact hbb) hlo hhi
  · rw [← h1]; exact drop_at hv.toAt hlo hhi
  · rw [htext]
    show (joined pre ++ (l ++ joined post)).take off = _
    rw [show off = (joined pre).length + (off - lenOf pre) from by rw [joined_length]; omega, List.take_length_add_append,
      List.take_append_of_le_length (by omega)]
    rw [joined_length, Nat.add_sub_cancel_left]
  · have := count_le hpre; omega
  · have := count_le hpost; omega

/-- `find_ne_char` finds the longest common piece, cut at `stop`. -/
theorem findNeChar_spec {rb rt : Rope} {s : RopeScanner} (hb : Alive rb s.base) (ht : Alive rt s.target) {bo to : Nat}
    (h1 : CharBoundary rb.text bo) (h2 : CharBoundary rt.text to) (stop : Option Nat) :
    ∃ s' r R, s.findNeChar bo to stop = some (s', r) ∧ Alive rb s'.base ∧ Alive rt s'.target ∧
      IsLargest (CommonPrefix (rb.text.drop bo) (rt.text.drop to)) R ∧ r = minStop stop R := by
  obtain ⟨cb, pb, lb, qb, kb, e1, r1, a1, g1, b1, l1, d1, -, n1, -, -, m1⟩ := set_leaf hb h1
  obtain ⟨ct, pt, lt, qt, kt, e2, r2, a2, g2, b2, l2, d2, -, n2, -, -, m2⟩ := set_leaf ht h2
  have ub := at_utf8 a1
  have ut := at_utf8 a2
  obtain ⟨s', r, R, q1, q2, q3, q4, q5⟩ := forwardLoop_spec (rb := rb) (rt := rt) stop (cb.root.len + ct.root.len + 1)
    ⟨cb, ct, lb.drop kb, lt.drop kt, 0⟩ qb qt ⟨r1, ⟨_, _, a1⟩, ((boundary_iff ub.2.1).1 b1).2.2, ub.2.2⟩
    ⟨r2, ⟨_, _, a2⟩, ((boundary_iff ut.2.1).1 b2).2.2, ut.2.2⟩ n1 n2 (by rw [r1, r2]; omega)
  refine ⟨s', r, R, ?_, q2, q3, by rw [d1, d2]; exact q4, by simpa using q5⟩
  unfold findNeChar
  simp only [e1, e2, g1, g2, Option.bind_eq_bind, Option.bind_some]
  rw [strSlice_spec l1 b1 boundary_length, strSlice_spec l2 b2 boundary_length, List.take_length, List.take_length]
  exact q1

theorem findNeCharBack_spec {rb rt : Rope} {s : RopeScanner} (hb : Alive rb s.base) (ht : Alive rt s.target) {bo to : Nat}
    (h1 : CharBoundary rb.text bo) (h2 : CharBoundary rt.text to) (stop : Option Nat) :
    ∃ s' r R, s.findNeCharBack bo to stop = some (s', r) ∧ Alive rb s'.base ∧ Alive rt s'.target ∧
      SameSuffix (rb.text.take bo) (rt.text.take to) R ∧
      (LastBytesApart rb.text rt.text → IsLargest (CommonSuffix (rb.text.take bo) (rt.text.take to)) R) ∧ r = minStop stop R := by
  obtain ⟨cb, pb, lb, qb, kb, e1, r1, a1, g1, b1, l1, x1, d1, -, n1, m1, -⟩ := set_leaf hb h1
  obtain ⟨ct, pt, lt, qt, kt, e2, r2, a2, g2, b2, l2, x2, d2, -, n2, m2, -⟩ := set_leaf ht h2
  have ub := at_utf8 a1
  have ut := at_utf8 a2
  obtain ⟨s', r, R, q1, q2, q3, q4, q4', q5⟩ := backLoop_spec (rb := rb) (rt := rt) stop (cb.root.len + ct.root.len + 1)
    ⟨cb, ct, lb.take kb, lt.take kt, 0⟩ pb pt
    ⟨r1, ⟨_, _, a1⟩, ((boundary_iff ub.2.1).1 b1).2.1, ub.1, lb.drop kb ++ joined qb, utf8_append ((boundary_iff ub.2.1).1 b1).2.2 ub.2.2, by
      rw [← List.append_assoc (lb.take kb), List.take_append_drop, ← r1]; exact a1.text⟩
    ⟨r2, ⟨_, _, a2⟩, ((boundary_iff ut.2.1).1 b2).2.1, ut.1, lt.drop kt ++ joined qt, utf8_append ((boundary_iff ut.2.1).1 b2).2.2 ut.2.2, by
      rw [← List.append_assoc (lt.take kt), List.take_append_drop, ← r2]; exact a2.text⟩ n1 n2 (by rw [r1, r2]; omega)
  refine ⟨s', r, R, ?_, q2, q3, by rw [d1, d2]; exact q4, fun hd => by rw [d1, d2]; exact q4' hd, by simpa using q5⟩
  unfold findNeCharBack
  simp only [e1, e2, g1, g2, Option.bind_eq_bind, Option.bind_some]
  rw [strSlice_spec (Nat.zero_le _) boundary_zero b1, strSlice_spec (Nat.zero_le _) boundary_zero b2, List.drop_zero, List.drop_zero]
  exact q1

theorem new_spec {base target : Rope} (hb : base.Balanced) (ht : target.Balanced) :
    ∃ s, RopeScanner.new base target = some s ∧ Alive base s.base ∧ Alive target s.target := by
  obtain ⟨cb, p1, l1, q1, e1, h1, g1, -⟩ := Cursor.new_spec hb (p := 0) (by omega)
  obtain ⟨ct, p2, l2, q2, e2, h2, g2, -⟩ := Cursor.new_spec ht (p := 0) (by omega)
  exact ⟨⟨cb, ct, [], [], 0⟩, by simp [RopeScanner.new, e1, e2], g1 ▸ Alive.of_at h1.toAt, g2 ▸ Alive.of_at h2.toAt⟩

end RopeScanner

end Xi
