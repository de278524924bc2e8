import Verif.Rope.RopeLemmas
import Verif.Rope.MetricLemmas

/-!
# Lemmas on ropes: the metrics
-/

namespace Xi

theorem counts_base : Counts baseMetric List.length where
  nil := rfl
  append _ _ := List.length_append
  leaf _ _ := rfl
  accumulate _ _ _ _ := rfl

theorem counts_lines : Counts linesMetric (List.count newline) where
  nil := rfl
  append _ _ := List.count_append
  leaf _ _ := rfl
  accumulate _ _ _ _ := rfl

/-- The contribution of one byte to the number of UTF-16 code units. -/
def utf16OfByte (b : UInt8) : Nat := (if isCont b then 0 else 1) + (if b.toNat ≥ 0xf0 then 1 else 0)

theorem countUtf16_eq (s : List UInt8) : countUtf16CodeUnits s = (s.map utf16OfByte).sum := by
  have : ∀ n, s.foldl (fun n b =>
      let n := if isCont b then n else n + 1
      if b.toNat ≥ 0xf0 then n + 1 else n) n = n + (s.map utf16OfByte).sum := by
    induction s with
    | nil => intro n; simp
    | cons b s ih =>
      intro n
      simp only [List.foldl_cons, ih, List.map_cons, List.sum_cons, utf16OfByte]
      repeat' split
      all_goals omega
  simp [countUtf16CodeUnits, this 0]

theorem counts_utf16 : Counts utf16Metric countUtf16CodeUnits where
  nil := rfl
  append a b := by simp [countUtf16_eq]
  leaf _ _ := rfl
  accumulate _ _ _ _ := rfl

/-- A character boundary of a text inside a piece of it. -/
theorem boundary_mid {a c b : List UInt8} {k : Nat} (ha : Utf8 a) (hb : Utf8 b) (hc : Utf8 c) (hk : k ≤ c.length)
    (h : isCharBoundary (a ++ (c ++ b)) (a.length + k) = true) : isCharBoundary c k = true := by
  rw [boundary_iff (utf8_append ha (utf8_append hc hb))] at h
  have h1 : Cut (List UInt8) (a ++ (c ++ b)) (a.length + k) := h
  have h2 := cut_right ha h1 (by omega)
  rw [Nat.add_sub_cancel_left] at h2
  exact (boundary_iff hc).2 (cut_left hb h2 hk)

/-- `count` of any metric of characters gives the number of units before an offset. -/
theorem Node.count_spec {r : Rope} (hr : r.Balanced) {M : Metric (List UInt8) RopeInfo} {μ : List UInt8 → Nat}
    (hM : Counts M μ) (hfrom : ∀ l b, isCharBoundary l b = true → M.fromBaseUnits l b = some (μ (l.take b)))
    {off : Nat} (hoff : CharBoundary r.text off) : r.count M off = some (μ (r.text.take off)) := by
  have hu := Rope.text_utf8 hr
  rw [← boundary_iff_spec hu] at hoff
  have hle := (utf8_split hu hoff).1
  simp only [Node.count]
  by_cases h0 : off = 0
  · subst h0; simp [Node.convertMetrics, hM.nil]
  by_cases hlt : off < r.text.length
  · obtain ⟨l, pre, post, m', k1, k2, k3, k4, k5, k6, k7⟩ := Node.convertMetrics_atomic counts_base hM rfl hr
      (m1 := off) (by omega) hlt
    simp only [LeafSpec.content] at k4 k6
    have hb : isCharBoundary l m' = true := by
      rw [k4, k5] at hoff
      exact boundary_mid k2 k3 k1.1 (by omega) hoff
    rw [k7]
    simp only [baseMetric, hb, if_true, Option.bind_some, hfrom l m' hb]
    rw [k4, k5, List.take_length_add_append, List.take_append_of_le_length (by omega), hM.append]
  · have : off = r.text.length := by omega
    subst this
    rw [List.take_length]
    rcases Node.convertMetrics_end counts_base hM rfl hr (by omega) with ⟨l, k1, k2, k3⟩ | ⟨l, pre, post, k1, k2, k3, k4, k5⟩
    · simp only [LeafSpec.content] at k2
      rw [k3, k2]
      simp only [baseMetric, boundary_length, if_true, Option.bind_some]
      rw [hfrom _ _ boundary_length, List.take_length]
    · have : pre = [] := List.length_eq_zero_iff.1 k3
      subst this
      rw [k5]
      simp only [baseMetric, boundary_zero, if_true, Option.bind_some, hfrom _ _ boundary_zero, List.take_zero, hM.nil, Nat.add_zero]

theorem lines_from_base (l : List UInt8) (b : Nat) (hb : isCharBoundary l b = true) :
    linesMetric.fromBaseUnits l b = some (List.count newline (l.take b)) := by
  simp [linesMetric, strSlice_spec (Nat.zero_le b) boundary_zero hb, countNewlines]

theorem lines_from_base_do (l : List UInt8) (b : Nat) (hb : isCharBoundary l b = true) {x : Nat} :
    ((baseMetric.toBaseUnits l b).bind fun base => (linesMetric.fromBaseUnits l base).bind fun y => some (x + y)) =
      some (x + List.count newline (l.take b)) := by
  simp only [baseMetric, hb, if_true, Option.bind_some, lines_from_base l b hb]

theorem utf16_from_base (l : List UInt8) (b : Nat) (hb : isCharBoundary l b = true) :
    utf16Metric.fromBaseUnits l b = some (countUtf16CodeUnits (l.take b)) := by
  simp [utf16Metric, strSlice_spec (Nat.zero_le b) boundary_zero hb]

theorem memchr_some {b : UInt8} {s : List UInt8} {i : Nat} (h : memchr b s = some i) :
    s[i]? = some b ∧ b ∉ s.take i := by
  induction s generalizing i with
  | nil => simp [memchr] at h
  | cons x s ih =>
    simp only [memchr] at h
    split at h
    · rename_i hx
      simp at h; subst h; simp [hx]
    · rename_i hx
      rw [Option.map_eq_some_iff] at h
      obtain ⟨j, hj, rfl⟩ := h
      obtain ⟨h1, h2⟩ := ih hj
      refine ⟨by simpa using h1, ?_⟩
      simp only [List.take_succ_cons, List.mem_cons, not_or]
      exact ⟨fun e => hx e.symm, h2⟩

theorem memchr_none {b : UInt8} {s : List UInt8} (h : memchr b s = none) : b ∉ s := by
  induction s with
  | nil => simp
  | cons x s ih =>
    simp only [memchr] at h
    split at h
    · simp at h
    · rename_i hx
      rw [Option.map_eq_none_iff] at h
      simp only [List.mem_cons, not_or]
      exact ⟨fun e => hx e.symm, ih h⟩

theorem take_succ_count {s : List UInt8} {i : Nat} (h1 : s[i]? = some newline) (h2 : newline ∉ s.take i) :
    (s.take (i + 1)).count newline = 1 := by
  rw [List.take_add_one, h1, List.count_append, List.count_eq_zero_of_not_mem h2]
  simp

/-- `LinesMetric::to_base_units` finds the place just after the `m`-th newline. -/
theorem linesToBase_spec {s : List UInt8} : ∀ (m off : Nat), off ≤ s.length → m ≤ (s.drop off).count newline →
    ∃ o, linesToBase s m off = some o ∧ off ≤ o ∧ o ≤ s.length ∧ (s.take o).count newline = (s.take off).count newline + m ∧
      (0 < m → 0 < o ∧ s[o - 1]? = some newline) ∧ (m = 0 → o = off) := by
  intro m
  induction m with
  | zero => intro off h1 h2; exact ⟨off, rfl, Nat.le_refl _, h1, rfl, by omega, fun _ => rfl⟩
  | succ m ih =>
    intro off h1 h2
    simp only [linesToBase]
    cases hm : memchr newline (s.drop off) with
    | none =>
      have := memchr_none hm
      rw [List.count_eq_zero_of_not_mem this] at h2; omega
    | some pos =>
      obtain ⟨g1, g2⟩ := memchr_some hm
      have hlt := (List.getElem?_eq_some_iff.1 g1).1
      rw [List.length_drop] at hlt
      have hc := take_succ_count g1 g2
      have hd : (s.drop off).count newline = 1 + (s.drop (off + pos + 1)).count newline := by
        have := List.take_append_drop (pos + 1) (s.drop off)
        rw [← this, List.count_append, hc, List.drop_drop, Nat.add_assoc]
      have ht : (s.take (off + pos + 1)).count newline = (s.take off).count newline + 1 := by
        rw [Nat.add_assoc, List.take_add, List.count_append, hc]
      obtain ⟨o, k1, k2, k3, k4, k5, k6⟩ := ih (off + pos + 1) (by omega) (by omega)
      refine ⟨o, k1, by omega, k3, by omega, ?_, by omega⟩
      intro _
      by_cases h0 : m = 0
      · rw [k6 h0]
        refine ⟨by omega, ?_⟩
        rw [List.getElem?_drop] at g1
        exact g1
      · exact k5 (by omega)

theorem boundary_after_newline {s : List UInt8} (hs : Utf8 s) {o : Nat} (h0 : 0 < o) (h : s[o - 1]? = some newline) :
    isCharBoundary s o = true := by
  have := newline_boundary hs h
  rwa [Nat.sub_add_cancel h0] at this

/-- `count_base_units` of the line metric. -/
theorem Node.countBaseUnits_lines {r : Rope} (hr : r.Balanced) {line : Nat} (hpos : 0 < line)
    (hline : line ≤ r.text.count newline) :
    ∃ o, r.countBaseUnits linesMetric line = some o ∧ o ≤ r.text.length ∧ (r.text.take o).count newline = line ∧
      0 < o ∧ r.text[o - 1]? = some newline := by
  obtain ⟨l, pre, post, m', k1, k2, k3, k4, k5, k6, k7, k8⟩ := Node.convertMetrics_fragment counts_lines counts_base rfl hr
    hpos hline
  simp only [LeafSpec.content] at k4 k6
  obtain ⟨o, g1, -, g3, g4, g5, -⟩ := linesToBase_spec (s := l) m' 0 (by omega) (by simpa using k6)
  obtain ⟨g5, g6⟩ := g5 k7
  have hb := boundary_after_newline k1.1 g5 g6
  refine ⟨pre.length + o, ?_, ?_, ?_, by omega, ?_⟩
  · simp only [Node.countBaseUnits, k8]
    simp [linesMetric, baseMetric, g1, hb]
  · rw [k4]; simp; omega
  · rw [k4, List.take_length_add_append, List.take_append_of_le_length g3, List.count_append, g4]
    simp; omega
  · rw [k4, show pre.length + o - 1 = pre.length + (o - 1) by omega, List.getElem?_append_right (by omega),
      Nat.add_sub_cancel_left, List.getElem?_append_left (by omega)]
    exact g6

namespace Rope

theorem lineOfOffset_spec {r : Rope} (hr : r.Balanced) {off : Nat} (hoff : CharBoundary r.text off) :
    r.lineOfOffset off = some ((r.text.take off).count newline) :=
  Node.count_spec hr counts_lines lines_from_base hoff

theorem measure_lines {r : Rope} (hr : r.Balanced) : r.measure linesMetric = r.text.count newline := by
  obtain ⟨h, hw⟩ := hr
  exact hw.measure counts_lines

theorem len_eq {r : Rope} (hr : r.Balanced) : r.len = r.text.length := by
  obtain ⟨h, hw⟩ := hr
  exact hw.len_eq

theorem offsetOfLine_spec {r : Rope} (hr : r.Balanced) {line : Nat} (hpos : 0 < line) (hline : line ≤ r.text.count newline) :
    ∃ o, r.offsetOfLine line = some o ∧ o ≤ r.text.length ∧ (r.text.take o).count newline = line ∧
      0 < o ∧ r.text[o - 1]? = some newline := by
  obtain ⟨o, h1, h2⟩ := Node.countBaseUnits_lines hr hpos hline
  refine ⟨o, ?_, h2⟩
  simp only [offsetOfLine, measure_lines hr]
  rw [if_neg (by omega), if_neg (by omega), h1]

theorem offsetOfLine_zero {r : Rope} : r.offsetOfLine 0 = some 0 := by
  simp only [offsetOfLine]
  rw [if_neg (by omega), if_neg (by omega)]
  simp [Node.countBaseUnits, Node.convertMetrics]

theorem offsetOfLine_last {r : Rope} (hr : r.Balanced) : r.offsetOfLine (r.text.count newline + 1) = some r.text.length := by
  simp only [offsetOfLine, measure_lines hr]
  simp [len_eq hr]

theorem offsetOfLine_beyond {r : Rope} (hr : r.Balanced) {line : Nat} (h : r.text.count newline + 1 < line) :
    r.offsetOfLine line = none := by
  simp only [offsetOfLine, measure_lines hr]
  rw [if_pos (by omega)]

end Rope

end Xi
