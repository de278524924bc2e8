import Verif.Spec.StateCache
import Verif.Plugin.ChunkUpdateLemmas

/-!
# Lines of an edited text
-/

namespace Xi

namespace Plugin

theorem lineBegin_left_eq {a b : List UInt8} {n : Nat} (h : n ≤ a.count newline) : lineBegin (a ++ b) n = lineBegin a n := by
  have : (0 :: afterNewlines (a ++ b))[n]? = (0 :: afterNewlines a)[n]? := by
    rw [afterNewlines_append, ← List.cons_append, List.getElem?_append_left (by rw [List.length_cons, afterNewlines_length]; omega)]
  rw [lineBegin, this, lineBegin, List.getElem?_eq_getElem (by rw [List.length_cons, afterNewlines_length]; omega)]
  rfl

theorem lineBegin_right_eq {a b : List UInt8} {n : Nat} (h : a.count newline < n) : lineBegin (a ++ b) n = a.length + lineBegin b (n - a.count newline) := by
  obtain ⟨k, rfl⟩ : ∃ k, n = a.count newline + k + 1 := ⟨n - a.count newline - 1, by omega⟩
  rw [lineBegin, List.getElem?_cons_succ, afterNewlines_append, List.getElem?_append_right (by rw [afterNewlines_length]; omega), List.getElem?_map,
    lineBegin, afterNewlines_length, show a.count newline + k + 1 - a.count newline = k + 1 by omega, show a.count newline + k - a.count newline = k by omega,
    List.getElem?_cons_succ]
  cases (afterNewlines b)[k]? with
  | none => simp
  | some o => simp; omega

theorem part_left {a b : List UInt8} {i j : Nat} (h : j ≤ a.length) : part (a ++ b) i j = part a i j := by
  rw [part, part, List.take_append_of_le_length h]

theorem part_right {a b : List UInt8} (i j : Nat) : part (a ++ b) (a.length + i) (a.length + j) = part b i j := by
  rw [part, part, List.take_append, List.drop_append]
  have h1 : a.take (a.length + j) = a := List.take_of_length_le (by omega)
  rw [h1, List.drop_eq_nil_of_le (by omega), show a.length + j - a.length = j by omega, show a.length + i - a.length = i by omega]
  rfl

/-- A line that ends within `a`. -/
theorem lineText_left {a b : List UInt8} {n : Nat} (h : n < a.count newline) : lineText (a ++ b) n = lineText a n := by
  rw [lineText, lineText, lineBegin_left_eq (by omega), lineBegin_left_eq (by omega), part_left (lineBegin_le _ _)]

/-- A line that starts within `b`, after a newline. -/
theorem lineText_right {a b : List UInt8} {n : Nat} (h : a.count newline < n) : lineText (a ++ b) n = lineText b (n - a.count newline) := by
  rw [lineText, lineText, lineBegin_right_eq h, lineBegin_right_eq (by omega), part_right, show n + 1 - a.count newline = n - a.count newline + 1 by omega]

theorem lineBegin_lt {t : List UInt8} {m n : Nat} (h : m < n) (hn : n ≤ t.count newline) : lineBegin t m < lineBegin t n := by
  rcases Nat.lt_or_ge (lineBegin t m) (lineBegin t n) with h' | h'
  · exact h'
  · have h1 := count_before_line hn
    have h2 := count_before_line (t := t) (n := m) (by omega)
    have := lineBegin_mono (t := t) (Nat.le_of_lt h)
    rw [show lineBegin t n = lineBegin t m by omega] at h1
    omega

/-- A line starts at or before an offset when its number is at most the number of newlines before it. -/
theorem lineBegin_le_iff {a b : List UInt8} {n : Nat} (hn : n ≤ (a ++ b).count newline) : lineBegin (a ++ b) n ≤ a.length ↔ n ≤ a.count newline := by
  constructor
  · intro h
    rcases Nat.lt_or_ge (a.count newline) n with h1 | h1
    · have h2 := lineBegin_right (b := b) h1
      have h3 := count_before_line hn
      rw [show lineBegin (a ++ b) n = a.length by omega] at h3
      simp at h3
      omega
    · exact h1
  · exact lineBegin_left

theorem runLines_add (h : Highlighter S) (t : List UInt8) : ∀ (a b m : Nat) (s : S), runLines h t m (a + b) s = runLines h t (m + a) b (runLines h t m a s)
  | 0, b, m, s => by simp [runLines]
  | a + 1, b, m, s => by
    rw [show a + 1 + b = (a + b) + 1 by omega, runLines, runLines, runLines_add h t a b (m + 1), show m + 1 + a = m + (a + 1) by omega]

theorem runLines_same {h : Highlighter S} (hl : h.Lawful) (t : List UInt8) : ∀ (k m : Nat) {a b : S}, h.same a b = true →
    h.same (runLines h t m k a) (runLines h t m k b) = true
  | 0, _, _, _, e => e
  | k + 1, m, _, _, e => runLines_same hl t k (m + 1) (hl.step _ _ _ e)

theorem runLines_text {h : Highlighter S} {t t' : List UInt8} : ∀ (k m m' : Nat) (s : S), (∀ j, j < k → lineText t (m + j) = lineText t' (m' + j)) →
    runLines h t m k s = runLines h t' m' k s
  | 0, _, _, _, _ => rfl
  | k + 1, m, m', s, e => by
    rw [runLines, runLines, runLines_text k (m + 1) (m' + 1) _ (fun j hj => by
      rw [show m + 1 + j = m + (j + 1) by omega, show m' + 1 + j = m' + (j + 1) by omega]; exact e _ (by omega))]
    have := e 0 (by omega)
    simp only [Nat.add_zero] at this
    rw [this]

theorem stateAt_from (h : Highlighter S) (t : List UInt8) {m n : Nat} (hm : m ≤ n) : stateAt h t n = runLines h t m (n - m) (stateAt h t m) := by
  rw [stateAt, stateAt, show n = m + (n - m) by omega, runLines_add]
  simp

/-- Every line but the last ends with a newline. -/
theorem lineText_ends {t : List UInt8} {n : Nat} (hn : n ≤ t.count newline) : (lineText t n).getLast? = some newline ↔ n < t.count newline := by
  constructor
  · intro h
    rcases Nat.lt_or_ge n (t.count newline) with h1 | h1
    · exact h1
    · have e : n = t.count newline := by omega
      have h2 := count_before_line hn
      have h3 : (t.drop (lineBegin t n)).count newline = 0 := by
        have := congrArg (List.count newline) (List.take_append_drop (lineBegin t n) t)
        rw [List.count_append] at this
        omega
      rw [lineText, part, lineBegin_end (n := n + 1) (by omega), List.take_length] at h
      have := List.mem_of_getLast? h
      rw [List.count_eq_zero] at h3
      exact absurd this h3
  · intro h
    have hlt := lineBegin_lt (t := t) (show n < n + 1 by omega) (by omega)
    have hle := lineBegin_le t (n + 1)
    have hmem : lineBegin t (n + 1) ∈ afterNewlines t := by
      rw [lineBegin, List.getElem?_cons_succ, List.getElem?_eq_getElem (by rw [afterNewlines_length]; exact h)]
      exact List.getElem_mem _
    obtain ⟨h1, h2⟩ := mem_afterNewlines.1 hmem
    rw [List.getLast?_eq_getElem?, lineText, part, List.length_drop, List.length_take, List.getElem?_drop, List.getElem?_take]
    rw [if_pos (by omega), show lineBegin t n + (min (lineBegin t (n + 1)) t.length - lineBegin t n - 1) = lineBegin t (n + 1) - 1 by omega]
    exact h2

end Plugin

end Xi
