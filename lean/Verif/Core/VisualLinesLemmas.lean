import Verif.Spec.VisualLines
import Verif.Rope.RopeCursor
import Verif.Rope.RopeMetrics

/-!
# Lemmas on hard and soft breaks together
-/

namespace Xi

section Generic

variable {L I α : Type} [TreeLeaf L I] [LeafSpec L I α]

/-- The cursor is on the tree `r`; it is valid, or else at the end. -/
def Cursor.Placed (r : Node L I) (c : Cursor L I) : Prop :=
  c.root = r ∧ ((∃ pre l post, c.Valid pre l post) ∨ (c.leaf = none ∧ c.Shape ∧ c.position = r.text.length))

/-- `q` is the next place after `p` where `B` holds, or the end. -/
structure NextOrEnd (B : Nat → Prop) (n p q : Nat) : Prop where
  le : p ≤ q
  bound : q ≤ n
  gap : ∀ k, p < k → k < q → ¬ B k
  prog : p < n → p < q
  hit : q < n → B q

theorem NextOrEnd.at_end {B : Nat → Prop} {n : Nat} : NextOrEnd B n n n := ⟨Nat.le_refl _, Nat.le_refl _, by omega, by omega, by omega⟩

theorem Cursor.Placed.le {r : Node L I} {c : Cursor L I} (h : c.Placed r) : c.position ≤ r.text.length := by
  obtain ⟨rfl, ⟨pre, l, post, hv⟩ | ⟨-, -, h⟩⟩ := h
  · exact hv.position_le
  · omega

theorem Cursor.Placed.set {r : Node L I} {c : Cursor L I} (h : c.Placed r) {p : Nat} (hp : p ≤ r.text.length) :
    ∃ c', c.set p = some c' ∧ c'.position = p ∧ c'.root = r ∧ ∃ pre l post, c'.Valid pre l post := by
  obtain ⟨rfl, h⟩ := h
  have : c.Shape ∧ (c.leaf = none ∨ ∃ pre l post, c.At pre l post) := by
    rcases h with ⟨pre, l, post, hv⟩ | ⟨h1, h2, -⟩
    · exact ⟨hv.toAt.shape, .inr ⟨pre, l, post, hv.toAt⟩⟩
    · exact ⟨h2, .inl h1⟩
  obtain ⟨c', pre, l, post, h1, h2, h3, h4⟩ := Cursor.set_spec this.1 this.2 hp
  exact ⟨c', h1, h4, h3, pre, l, post, h2⟩

variable {M : Metric L I} {μ : List α → Nat} {Bd : List α → Nat → Prop}

theorem Cursor.Placed.next (hM : Finds M μ Bd) (hfr : M.canFragment = true) {r : Node L I} {c : Cursor L I} (h : c.Placed r) :
    ∃ c' x, c.next M = some (c', x) ∧ c'.Placed r ∧ NextOrEnd (Bd r.text) r.text.length c.position c'.position := by
  obtain ⟨rfl, ⟨pre, l, post, hv⟩ | ⟨h1, h2, h3⟩⟩ := h
  · obtain ⟨c', x, e1, e2, e3, e4⟩ := Cursor.next_spec_pos hM hv (by simp [hfr])
    refine ⟨c', x, e1, ?_⟩
    have hst := e3.stands rfl
    have hle := hv.position_le
    cases x with
    | none =>
      obtain ⟨n, hw⟩ := hv.toAt.balanced
      have hpos := e4 rfl
      rw [hw.len_eq] at hpos
      refine ⟨⟨hst.1, .inr ⟨hst.2.1, hst.2.2, hpos⟩⟩, by omega, by omega, ?_, by omega, by omega⟩
      intro k k1 k2
      exact e2 k k1 (by omega)
    | some b =>
      obtain ⟨g1, g2, g3⟩ := hst
      obtain ⟨b1, b2, b3, b4⟩ := e2
      refine ⟨⟨g1, .inl g3⟩, by omega, by omega, ?_, by omega, ?_⟩
      · rw [g2]; exact b4
      · rw [g2]; intro _; exact b3
  · refine ⟨{ c with leaf := none }, none, ?_, ⟨rfl, .inr ⟨rfl, ⟨h2.balanced, h2.size, h2.high⟩, h3⟩⟩, ?_⟩
    · simp [Cursor.next, h1]
    · show NextOrEnd _ _ c.position c.position
      rw [h3]; exact .at_end

/-- Both branches of `set_offset`. -/
theorem backTo_spec (hM : Finds M μ Bd) {r : Node L I} {c : Cursor L I} (hr : c.root = r) {q : Nat} (hq : c.position = q)
    (h : ∃ pre l post, c.Valid pre l post) :
    ∃ c', MergedBreaks.backTo q c M = some c' ∧ c'.root = r ∧ (∃ pre l post, c'.Valid pre l post) ∧ c'.position ≤ q ∧
      (c'.position = 0 ∨ Bd r.text c'.position) ∧ ∀ k, c'.position < k → k ≤ q → ¬ Bd r.text k := by
  subst hq
  unfold MergedBreaks.backTo
  by_cases h0 : c.position > 0
  · rw [if_pos h0]
    obtain ⟨pre, l, post, hv⟩ := h
    obtain ⟨c1, x, e1, e2, e3⟩ := Cursor.atOrPrev_spec hM hv
    have hst := e3.stands hr
    simp only [e1, Option.bind_eq_bind, Option.bind_some]
    rw [hr] at e2
    cases x with
    | none =>
      obtain ⟨g1, g2, g3⟩ := hst
      obtain ⟨c', pre, l, post, k1, k2, k3, k4⟩ := Cursor.set_spec g3 (.inl g2) (p := 0) (Nat.zero_le _)
      refine ⟨c', by simp [k1], by rw [k3, g1], ⟨_, _, _, k2⟩, by omega, .inl k4, ?_⟩
      intro k _ hk
      exact e2 k (by omega)
    | some b =>
      obtain ⟨g1, g2, g3⟩ := hst
      obtain ⟨b1, b2, b3⟩ := e2
      refine ⟨c1, by simp, g1, g3, by omega, ?_, ?_⟩
      · rw [g2]; exact .inr b2
      · rw [g2]; intro k k1 k2; exact b3 k k1 (by omega)
  · rw [if_neg h0]
    exact ⟨c, rfl, hr, h, by omega, .inl (by omega), by omega⟩

end Generic

/-! ## Counting -/

theorem count_take_gap {α : Type} [BEq α] [LawfulBEq α] (t : List α) (x : α) {o : Nat} : ∀ {p : Nat}, o ≤ p →
    (∀ k, o < k → k ≤ p → t[k - 1]? ≠ some x) → (t.take p).count x = (t.take o).count x := by
  intro p h
  induction p with
  | zero => intro _; rw [show o = 0 by omega]
  | succ p ih =>
    intro hk
    by_cases e : o = p + 1
    · rw [e]
    · rw [List.take_add_one, List.count_append, ih (by omega) (fun k k1 k2 => hk k k1 (by omega))]
      have := hk (p + 1) (by omega) (by omega)
      simp only [Nat.add_sub_cancel] at this
      cases e : t[p]? with
      | none => simp
      | some y =>
        rw [e] at this
        have : y ≠ x := by rintro rfl; exact this rfl
        simp [this]

theorem count_take_hit {α : Type} [BEq α] [LawfulBEq α] (t : List α) (x : α) {p : Nat} (h0 : 0 < p) (h : t[p - 1]? = some x) :
    (t.take p).count x = (t.take (p - 1)).count x + 1 := by
  obtain ⟨q, rfl⟩ : ∃ q, p = q + 1 := ⟨p - 1, by omega⟩
  simp only [Nat.add_sub_cancel] at h ⊢
  rw [List.take_add_one, List.count_append, h]
  simp

theorem count_take_le_take {α : Type} [BEq α] [LawfulBEq α] (t : List α) (x : α) {o p : Nat} (h : o ≤ p) :
    (t.take o).count x ≤ (t.take p).count x := by
  rw [show p = o + (p - o) by omega, List.take_add, List.count_append]; omega

theorem count_take_succ_le {α : Type} [BEq α] [LawfulBEq α] (t : List α) (x : α) (o : Nat) :
    (t.take (o + 1)).count x ≤ (t.take o).count x + 1 := by
  rw [List.take_add_one, List.count_append]
  have : (t[o]?.toList).count x ≤ 1 := by
    refine Nat.le_trans List.count_le_length ?_
    cases t[o]? <;> simp
  omega

section

variable {t : List UInt8} {b : List Bool}

theorem lineIndex_gap {o p : Nat} (h : o ≤ p) (hg : ∀ k, o < k → k ≤ p → ¬ Starts t b k) : lineIndex t b p = lineIndex t b o := by
  simp only [lineIndex]
  rw [count_take_gap t newline h (fun k k1 k2 e => hg k k1 k2 (.inl ⟨by omega, e⟩)),
    count_take_gap b true h (fun k k1 k2 e => hg k k1 k2 (.inr ⟨by omega, e⟩))]

theorem lineIndex_hit (ha : ∀ k, LineBoundary t k → ¬ BreakAt b k) {o p : Nat} (h : o < p) (hs : Starts t b p)
    (hg : ∀ k, o < k → k < p → ¬ Starts t b k) : lineIndex t b p = lineIndex t b o + 1 := by
  rw [← lineIndex_gap (t := t) (b := b) (o := o) (p := p - 1) (by omega) (fun k k1 k2 => hg k k1 (by omega))]
  simp only [lineIndex]
  rcases hs with hs | hs
  · have h2 := ha _ hs
    rw [count_take_hit t newline hs.1 hs.2, count_take_gap b true (o := p - 1) (p := p) (by omega)]
    · omega
    · intro k k1 k2 e
      rw [show k = p by omega] at e
      exact h2 ⟨by omega, e⟩
  · have h2 : ¬ LineBoundary t p := fun h' => ha _ h' hs
    rw [count_take_hit b true hs.1 hs.2, count_take_gap t newline (o := p - 1) (p := p) (by omega)]
    · omega
    · intro k k1 k2 e
      rw [show k = p by omega] at e
      exact h2 ⟨by omega, e⟩

theorem lineIndex_mono {o p : Nat} (h : o ≤ p) : lineIndex t b o ≤ lineIndex t b p := by
  have := count_take_le_take t newline h
  have := count_take_le_take b true h
  simp only [lineIndex]; omega

theorem lineIndex_succ_le (o : Nat) : lineIndex t b (o + 1) ≤ lineIndex t b o + 2 := by
  have := count_take_succ_le t newline o
  have := count_take_succ_le b true o
  simp only [lineIndex]; omega

theorem lineIndex_zero : lineIndex t b 0 = 0 := by simp [lineIndex]

end

/-! ## The merged cursor -/

namespace MergedBreaks

variable {r : Rope} {b : Breaks}

/-- What holds between calls. -/
structure Usable (r : Rope) (b : Breaks) (m : MergedBreaks) : Prop where
  text : m.text.Placed r
  soft : m.soft.Placed b
  len : m.len = r.text.length
  total : m.totalLines = lineIndex r.text b.text r.text.length + 1

/-- The offset and the two cursors fit together. -/
structure Inv (r : Rope) (b : Breaks) (m : MergedBreaks) : Prop extends Usable r b m where
  off : m.offset = min m.text.position m.soft.position
  hard : m.text.position = m.offset ∨ NextOrEnd (LineBoundary r.text) r.text.length m.offset m.text.position
  softly : m.soft.position = m.offset ∨ NextOrEnd (BreakAt b.text) r.text.length m.offset m.soft.position
  hardAt : m.offset = 0 ∨ LineBoundary r.text m.offset → m.text.position = m.offset
  hardOf : m.text.position = m.offset → m.offset = 0 ∨ LineBoundary r.text m.offset ∨ m.offset = r.text.length

theorem getLast_boundary {t : List UInt8} (h : 0 < t.length) : t.getLast? = some newline ↔ LineBoundary t t.length := by
  rw [LineBoundary, List.getLast?_eq_getElem?]
  simp [h]

theorem lastCheck_spec {m : MergedBreaks} (hi : Usable r b m) (hle : m.offset ≤ r.text.length)
    (htp : m.offset ≤ m.text.position) :
    ∃ m' stuck, m.lastCheck = some (m', stuck) ∧ m'.text.Placed r ∧ m'.text.position = m.text.position ∧ m'.soft = m.soft ∧ m'.offset = m.offset ∧
      m'.curLine = m.curLine ∧ m'.totalLines = m.totalLines ∧ m'.len = m.len ∧
      (stuck = true ↔ 0 < m.offset ∧ m.offset = r.text.length ∧ ¬ LineBoundary r.text r.text.length) := by
  unfold lastCheck
  by_cases h : m.offset > 0 ∧ m.atEof = true
  · rw [if_pos h]
    obtain ⟨h0, h1⟩ := h
    have he : m.offset = r.text.length := by simpa [atEof, hi.len] using h1
    have htl : m.text.position = r.text.length := by have := hi.text.le; omega
    obtain ⟨c', e1, e2, e3, pre, l, post, hv⟩ := hi.text.set (p := m.len) (by rw [hi.len]; omega)
    have hlo := hv.lo
    have hpost : post = [] ∧ c'.position = lenOf pre + l.length := by
      have hrl := hv.toAt.rootLen
      obtain ⟨n, hw⟩ := hv.toAt.balanced
      have hl := hw.len_eq
      rw [e3] at hl hrl
      have hcl : LeafSpec.content (L := List UInt8) l = l := rfl
      rcases hv.hi with h | h
      · rw [hi.len] at e2; rw [hcl] at hrl h; omega
      · exact h
    have hlne : 0 < l.length := by
      by_cases hp : pre = []
      · subst hp
        have h2 := hpost.2
        rw [lenOf_nil] at h2; rw [hi.len] at e2; omega
      · exact hv.toAt.pos (.inl hp) l (by simp)
    have ht : r.text = joined pre ++ l := by
      rw [← e3, hv.toAt.joined, hpost.1, joined_append, joined_cons]
      simp [LeafSpec.content]
    have hlast : l.getLast? = r.text.getLast? := by
      rw [ht, List.getLast?_append]
      cases l with
      | nil => simp at hlne
      | cons a l => rw [List.getLast?_eq_some_getLast (by simp)]; rfl
    refine ⟨{ m with text := c' }, l.getLast? != some newline, ?_, ⟨e3, .inl ⟨_, _, _, hv⟩⟩, by simp [e2, hi.len, htl], rfl, rfl, rfl, rfl, rfl, ?_⟩
    · simp only [eofWithoutNewline, h1, e1, Option.bind_eq_bind, Option.bind_some]
      simp [Cursor.getLeaf, hv.toAt.leaf, hv.toAt.off, hlo]
    · rw [hlast, ← getLast_boundary (by omega)]
      simp only [bne_iff_ne, ne_eq]
      exact ⟨fun h => ⟨h0, he, h⟩, fun h => h.2.2⟩
  · rw [if_neg h]
    refine ⟨m, false, rfl, hi.text, rfl, rfl, rfl, rfl, rfl, rfl, ?_⟩
    simp [atEof, hi.len] at h ⊢
    intro h1 h2; exact absurd h2 (h h1)

theorem next_spec {m : MergedBreaks} (hb : b.text.length = r.text.length) (hi : Inv r b m) :
    ∃ m' res, m.next = some (m', res) ∧ Inv r b m' ∧
      NextOrEnd (Starts r.text b.text) r.text.length m.offset m'.offset ∧
      (res = some m'.offset ∧ Starts r.text b.text m'.offset ∧ m.offset < m'.offset ∧ m'.curLine = m.curLine + 1 ∨
       res = none ∧ m'.offset = r.text.length ∧ m'.curLine = m.curLine ∧
        (m.offset = r.text.length ∨ ¬ LineBoundary r.text r.text.length)) := by
  have ht1 := hi.text.le
  have hs1 := hi.soft.le
  have hoff := hi.off
  -- the text cursor
  have ht : ∃ t, m.textStep = some t ∧
      t.Placed r ∧ NextOrEnd (LineBoundary r.text) r.text.length m.offset t.position := by
    unfold textStep
    by_cases h : m.text.position = m.offset ∧ m.atEof = false
    · rw [if_pos h]
      obtain ⟨c', x, e1, e2, e3⟩ := hi.text.next finds_lines rfl
      rw [h.1] at e3
      exact ⟨c', by simp [e1], e2, e3⟩
    · rw [if_neg h]
      refine ⟨m.text, rfl, hi.text, ?_⟩
      rcases hi.hard with h1 | h1
      · have : m.offset = r.text.length := by
          simpa [h1, atEof, hi.len] using h
        rw [h1, this]; exact .at_end
      · exact h1
  have hs : ∃ s, m.softStep = some s ∧
      s.Placed b ∧ NextOrEnd (BreakAt b.text) r.text.length m.offset s.position := by
    unfold softStep
    by_cases h : m.soft.position = m.offset
    · rw [if_pos h]
      obtain ⟨c', x, e1, e2, e3⟩ := hi.soft.next finds_breaks rfl
      rw [h, hb] at e3
      exact ⟨c', by simp [e1], e2, e3⟩
    · rw [if_neg h]
      refine ⟨m.soft, rfl, hi.soft, ?_⟩
      rcases hi.softly with h1 | h1
      · exact absurd h1 h
      · exact h1
  obtain ⟨t, t1, t2, t3⟩ := ht
  obtain ⟨s, s1, s2, s3⟩ := hs
  have t4 := t2.le
  have s4 := s2.le
  obtain ⟨m', stuck, e1, e2, e3, e4, e5, e6, e7, e8, e9⟩ := lastCheck_spec
    (m := { m with text := t, soft := s, offset := min t.position s.position }) ⟨t2, s2, hi.len, hi.total⟩
    (by simp only; omega) (by simp only; omega)
  simp only at e3 e4 e5 e6 e7 e8 e9
  have hne : NextOrEnd (Starts r.text b.text) r.text.length m.offset m'.offset := by
    rw [e5]
    have := t3.le; have := s3.le; have := t3.prog; have := s3.prog
    refine ⟨by omega, by omega, ?_, by omega, ?_⟩
    · rintro k k1 k2 (h | h)
      · exact t3.gap k k1 (by omega) h
      · exact s3.gap k k1 (by omega) h
    · intro h
      by_cases hc : t.position ≤ s.position
      · rw [Nat.min_eq_left hc] at h ⊢
        exact .inl (t3.hit h)
      · rw [Nat.min_eq_right (by omega)] at h ⊢
        exact .inr (s3.hit h)
  have hinv : Inv r b m' := by
    have a1 := t3.le; have a2 := s3.le
    refine ⟨⟨e2, by rw [e4]; exact s2, by rw [e8, hi.len], by rw [e7, hi.total]⟩, by rw [e5, e3, e4], ?_, ?_, ?_, ?_⟩
    · rw [e5, e3]
      by_cases hc : t.position ≤ s.position
      · left; omega
      · right
        rw [Nat.min_eq_right (by omega)]
        exact ⟨by omega, by omega, fun k k1 k2 => t3.gap k (by omega) k2, by omega, t3.hit⟩
    · rw [e5, e4]
      by_cases hc : s.position ≤ t.position
      · left; omega
      · right
        rw [Nat.min_eq_left (by omega)]
        exact ⟨by omega, by omega, fun k k1 k2 => s3.gap k (by omega) k2, by omega, s3.hit⟩
    · rw [e5, e3]
      intro hB
      by_cases hc : t.position ≤ s.position
      · omega
      · rw [Nat.min_eq_right (by omega)] at hB ⊢
        have := s3.prog
        rcases hB with hB | hB
        · omega
        by_cases hq : m.offset < s.position
        · exact absurd hB (t3.gap _ hq (by omega))
        · have := s3.prog; omega
    · rw [e5, e3]
      intro hB
      rw [← hB]
      by_cases hc : t.position < r.text.length
      · exact .inr (.inl (t3.hit hc))
      · omega
  have hnext : m.next = if m'.offset = m.offset ∨ stuck = true then some (m', none)
      else some ({ m' with curLine := m'.curLine + 1 }, some m'.offset) := by
    simp only [next, t1, s1, e1, Option.bind_eq_bind, Option.bind_some]
    split <;> rfl
  by_cases hc : m'.offset = m.offset ∨ stuck = true
  · rw [if_pos hc] at hnext
    refine ⟨m', none, hnext, hinv, hne, .inr ⟨rfl, ?_⟩⟩
    rcases hc with hc | hc
    · have := hne.prog
      have := hne.bound
      exact ⟨by omega, e6, by omega⟩
    · obtain ⟨g1, g2, g3⟩ := e9.1 hc
      exact ⟨by omega, e6, .inr g3⟩
  · rw [if_neg hc] at hnext
    have hc1 : m'.offset ≠ m.offset := fun h => hc (.inl h)
    have hc2 : ¬ stuck = true := fun h => hc (.inr h)
    refine ⟨_, _, hnext, ⟨⟨hinv.text, hinv.soft, hinv.len, hinv.total⟩, hinv.off, hinv.hard, hinv.softly, hinv.hardAt, hinv.hardOf⟩, hne, .inl ⟨rfl, ?_, ?_, by simp [e6]⟩⟩
    · show Starts _ _ m'.offset
      by_cases hl : m'.offset < r.text.length
      · exact hne.hit hl
      · left
        have := hne.le
        have := hne.bound
        rw [e9] at hc2
        have : m'.offset = r.text.length := by omega
        rw [this]
        exact Classical.byContradiction fun hn => hc2 ⟨by omega, by omega, hn⟩
    · show m.offset < m'.offset
      have := hne.le; omega

theorem line_boundary_char (hr : r.Balanced) {k : Nat} (h : LineBoundary r.text k) : CharBoundary r.text k :=
  (boundary_iff_spec (Rope.text_utf8 hr)).1 (boundary_after_newline (Rope.text_utf8 hr) h.1 h.2)

theorem mergedLine_spec (ha : Agree r b) {o : Nat} (ho : o ≤ r.text.length) (h : o = 0 ∨ Starts r.text b.text o) :
    mergedLineOfOffset r b o = some (lineIndex r.text b.text o) := by
  have hc : CharBoundary r.text o := by
    rcases h with rfl | h | h
    · exact (boundary_iff_spec (Rope.text_utf8 ha.text)).1 (by simp [isCharBoundary])
    · exact line_boundary_char ha.text h
    · exact ha.chars _ h
  have h1 := Rope.lineOfOffset_spec ha.text hc
  rw [Rope.lineOfOffset] at h1
  simp [mergedLineOfOffset, h1, Breaks.count_spec ha.breaks (by rw [ha.len]; exact ho), lineIndex]

theorem setOffset_spec (ha : Agree r b) {m : MergedBreaks} (hu : Usable r b m) {q : Nat} (hq : q ≤ r.text.length) :
    ∃ m', m.setOffset q = some m' ∧ Inv r b m' ∧ m'.curLine = lineIndex r.text b.text m'.offset ∧ m'.offset ≤ q ∧
      (m'.offset = 0 ∨ Starts r.text b.text m'.offset) ∧ ∀ k, m'.offset < k → k ≤ q → ¬ Starts r.text b.text k := by
  obtain ⟨t0, t1, t0p, t0r, t0v⟩ := hu.text.set hq
  obtain ⟨s0, s1, s0p, s0r, s0v⟩ := hu.soft.set (p := q) (by rw [ha.len]; exact hq)
  obtain ⟨t, t2, t3, t4, t5, t6, t7⟩ := backTo_spec finds_lines t0r t0p t0v
  obtain ⟨s, s2, s3, s4, s5, s6, s7⟩ := backTo_spec finds_breaks s0r s0p s0v
  have tp : t.Placed r := ⟨t3, .inl t4⟩
  have sp : s.Placed b := ⟨s3, .inl s4⟩
  have key : ∃ t' s', alignCursors t s = some (t', s') ∧ t'.Placed r ∧ s'.Placed b ∧
      min t'.position s'.position = max t.position s.position ∧
      (t'.position = min t'.position s'.position ∨ NextOrEnd (LineBoundary r.text) r.text.length (min t'.position s'.position) t'.position) ∧
      (s'.position = min t'.position s'.position ∨ NextOrEnd (BreakAt b.text) r.text.length (min t'.position s'.position) s'.position) ∧
      (min t'.position s'.position = 0 ∨ LineBoundary r.text (min t'.position s'.position) → t'.position = min t'.position s'.position) ∧
      (t'.position = min t'.position s'.position → min t'.position s'.position = 0 ∨ LineBoundary r.text (min t'.position s'.position) ∨
        min t'.position s'.position = r.text.length) := by
    unfold alignCursors
    by_cases h1 : t.position < s.position
    · rw [if_pos h1]
      obtain ⟨t', x, e1, e2, e3⟩ := tp.next finds_lines rfl
      have e4 := e2.le
      have e5 := e3.prog (by omega)
      have hge : q < t'.position ∨ t'.position = r.text.length := by
        by_cases hl : t'.position < r.text.length
        · left
          have := e3.hit hl
          apply Classical.byContradiction
          intro hn
          exact t7 _ e5 (by omega) this
        · right; omega
      have hmin : min t'.position s.position = s.position := by omega
      refine ⟨t', s, by simp [e1], e2, sp, by omega, ?_, .inl (by omega), ?_, ?_⟩
      · rw [hmin]
        by_cases hc : t'.position = s.position
        · exact .inl hc
        · right
          exact ⟨by omega, by omega, fun k k1 k2 => e3.gap k (by omega) k2, by omega, e3.hit⟩
      · rw [hmin]
        intro hB
        rcases hB with hB | hB
        · omega
        rcases s6 with h | h
        · omega
        · exact absurd h (ha.apart _ hB)
      · rw [hmin]; intro he; omega
    · rw [if_neg h1]
      by_cases h2 : t.position > s.position
      · rw [if_pos h2]
        obtain ⟨s', x, e1, e2, e3⟩ := sp.next finds_breaks rfl
        have e4 := e2.le
        have hlen := ha.len
        have htl := tp.le
        have e5 := e3.prog (by omega)
        have hge : q < s'.position ∨ s'.position = r.text.length := by
          by_cases hl : s'.position < r.text.length
          · left
            have := e3.hit (by omega)
            apply Classical.byContradiction
            intro hn
            exact s7 _ e5 (by omega) this
          · right; omega
        have hmin : min t.position s'.position = t.position := by omega
        refine ⟨t, s', by simp [e1], tp, e2, by omega, .inl (by omega), ?_, ?_, ?_⟩
        · rw [hmin]
          by_cases hc : s'.position = t.position
          · exact .inl hc
          · right
            exact ⟨by omega, by omega, fun k k1 k2 => e3.gap k (by omega) k2, by omega, fun h => e3.hit (by omega)⟩
        · rw [hmin]; intro _; rfl
        · rw [hmin]; intro _
          rcases t6 with h | h
          · exact .inl h
          · exact .inr (.inl h)
      · rw [if_neg h2]
        have he : t.position = s.position := by omega
        have h0 : t.position = 0 := by
          rcases t6 with h | h
          · exact h
          · rcases s6 with h' | h'
            · omega
            · rw [← he] at h'
              exact absurd h' (ha.apart _ h)
        rw [if_pos h0]
        exact ⟨t, s, rfl, tp, sp, by omega, .inl (by omega), .inl (by omega), by omega, by omega⟩
  obtain ⟨t', s', k1, k2, k3, k4, k5, k6, k7, k8⟩ := key
  have hst : min t'.position s'.position = 0 ∨ Starts r.text b.text (min t'.position s'.position) := by
    rw [k4]
    by_cases hc : t.position ≤ s.position
    · rw [Nat.max_eq_right hc]
      exact s6.imp id .inr
    · rw [Nat.max_eq_left (by omega)]
      exact t6.imp id .inl
  have hline := mergedLine_spec ha (by omega) hst
  refine ⟨{ m with text := t', soft := s', offset := min t'.position s'.position, curLine := lineIndex r.text b.text (min t'.position s'.position) },
    ?_, ⟨⟨k2, k3, hu.len, hu.total⟩, rfl, k5, k6, k7, k8⟩, rfl, by simp only; omega, hst, ?_⟩
  · simp only [setOffset, t1, s1, t2, s2, k1, Option.bind_eq_bind, Option.bind_some, k2.1, k3.1, hline]
    rfl
  · rintro k (g1 : min t'.position s'.position < k) g2 (h | h)
    · exact t7 k (by omega) g2 h
    · exact s7 k (by omega) g2 h

/-- When the next start of a line is the end of the text. -/
theorem end_start (ha : Agree r b) {o : Nat} (h : NextOrEnd (Starts r.text b.text) r.text.length o r.text.length)
    (hl : lineIndex r.text b.text o < lineIndex r.text b.text r.text.length) :
    Starts r.text b.text r.text.length ∧ lineIndex r.text b.text r.text.length = lineIndex r.text b.text o + 1 := by
  have h1 : o < r.text.length := by
    have := h.le
    by_cases e : o = r.text.length
    · rw [e] at hl; omega
    · omega
  have h2 : Starts r.text b.text r.text.length := by
    apply Classical.byContradiction
    intro hn
    have := lineIndex_gap (t := r.text) (b := b.text) h.le (fun k k1 k2 hs => by
      by_cases e : k = r.text.length
      · rw [e] at hs; exact hn hs
      · exact h.gap k k1 (by omega) hs)
    omega
  exact ⟨h2, lineIndex_hit ha.apart h1 h2 h.gap⟩

theorem nth_spec (ha : Agree r b) (d : Nat) : ∀ {m : MergedBreaks}, Inv r b m → m.curLine = lineIndex r.text b.text m.offset →
    m.curLine + d + 1 ≤ lineIndex r.text b.text r.text.length →
    ∃ m' res, nth d m = some (m', res) ∧ Usable r b m' ∧ res.getD r.text.length ≤ r.text.length ∧ Starts r.text b.text (res.getD r.text.length) ∧
      lineIndex r.text b.text (res.getD r.text.length) = m.curLine + d + 1 := by
  intro m hi hl hd
  induction d generalizing m with
  | zero =>
    obtain ⟨m', res, e1, e2, e3, e4⟩ := next_spec ha.len hi
    rw [nth]
    refine ⟨m', res, e1, e2.toUsable, ?_⟩
    rcases e4 with ⟨rfl, h1, h2, h3⟩ | ⟨rfl, h1, h2, h3⟩
    · refine ⟨e3.bound, h1, ?_⟩
      simp only [Option.getD_some]
      rw [lineIndex_hit ha.apart h2 h1 e3.gap]; omega
    · simp only [Option.getD_none]
      rw [h1] at e3
      obtain ⟨k1, k2⟩ := end_start ha e3 (by omega)
      exact ⟨Nat.le_refl _, k1, by omega⟩
  | succ d ih =>
    obtain ⟨m', res, e1, e2, e3, e4⟩ := next_spec ha.len hi
    simp only [nth, e1, Option.bind_eq_bind, Option.bind_some]
    rcases e4 with ⟨rfl, h1, h2, h3⟩ | ⟨rfl, h1, h2, h3⟩
    · have h4 := lineIndex_hit ha.apart h2 h1 e3.gap
      obtain ⟨m'', res, g1, g2, g3, g4, g5⟩ := ih e2 (by omega) (by omega)
      exact ⟨m'', res, by simpa using g1, g2, g3, g4, by omega⟩
    · rw [h1] at e3
      obtain ⟨k1, k2⟩ := end_start ha e3 (by omega)
      omega

theorem linear_spec (ha : Agree r b) {m : MergedBreaks} (hi : Inv r b m) (hl : m.curLine = lineIndex r.text b.text m.offset) {line : Nat}
    (h1 : m.curLine < line) (h2 : line ≤ lineIndex r.text b.text r.text.length) :
    ∃ m' o, m.offsetOfLineLinear line = some (m', o) ∧ Usable r b m' ∧ LineAt r.text b.text line o := by
  obtain ⟨m', res, e1, e2, e3, e4, e5⟩ := nth_spec ha (line - m.curLine - 1) hi hl (by omega)
  refine ⟨m', res.getD r.text.length, ?_, e2, .inr ⟨e4, e3, by omega⟩⟩
  simp only [offsetOfLineLinear]
  rw [if_neg (by omega)]
  simp [e1, e2.len]

theorem bsearch_spec (ha : Agree r b) {line : Nat} (fuel : Nat) : ∀ {m : MergedBreaks} {lo hi : Nat}, Usable r b m →
    lineIndex r.text b.text lo < line → line ≤ lineIndex r.text b.text hi → hi ≤ r.text.length → hi - lo ≤ fuel →
    ∃ m' o, bsearchLoop line fuel m lo hi = some (m', o) ∧ Usable r b m' ∧ LineAt r.text b.text line o := by
  induction fuel with
  | zero =>
    intro m lo hi _ h1 h2 _ h4
    have := lineIndex_mono (t := r.text) (b := b.text) (o := hi) (p := lo) (by omega)
    omega
  | succ fuel ih =>
    intro m lo hi hu h1 h2 h3 h4
    have hlt : lo < hi := by
      apply Classical.byContradiction
      intro hn
      have := lineIndex_mono (t := r.text) (b := b.text) (o := hi) (p := lo) (by omega)
      omega
    obtain ⟨m', e1, e2, e3, e4, e5, e6⟩ := setOffset_spec ha hu (q := lo + (hi - lo) / 2) (by omega)
    have e7 := lineIndex_gap e4 e6
    simp only [bsearchLoop, e1, Option.bind_eq_bind, Option.bind_some]
    by_cases c1 : m'.curLine = line
    · rw [if_pos c1]
      refine ⟨_, _, rfl, e2.toUsable, .inr ⟨?_, by omega, by omega⟩⟩
      rcases e5 with h | h
      · rw [h, lineIndex_zero] at e3; omega
      · exact h
    · rw [if_neg c1]
      by_cases c2 : m'.curLine > line
      · rw [if_pos c2]
        exact ih e2.toUsable h1 (by omega) (by omega) (by omega)
      · rw [if_neg c2]
        by_cases c3 : line - m'.curLine > maxLinearDist
        · rw [if_pos c3]
          refine ih e2.toUsable (by omega) h2 h3 ?_
          by_cases hs : hi = lo + 1
          · have := lineIndex_succ_le (t := r.text) (b := b.text) lo
            rw [← hs] at this
            have hp : lo + (hi - lo) / 2 = lo := by omega
            rw [hp] at e7
            unfold maxLinearDist at c3
            omega
          · omega
        · rw [if_neg c3]
          refine linear_spec ha e2 e3 (by omega) ?_
          exact Nat.le_trans h2 (lineIndex_mono h3)

theorem new_spec (ha : Agree r b) : ∃ m, new r b = some m ∧ Inv r b m ∧ m.curLine = 0 ∧ m.offset = 0 := by
  have hl1 := Rope.len_eq ha.text
  have hl2 : b.len = b.text.length := by obtain ⟨n, hw⟩ := ha.breaks; exact hw.len_eq
  obtain ⟨t, pre, l, post, e1, e2, e3, e4⟩ := Cursor.new_spec ha.text (p := 0) (Nat.zero_le _)
  obtain ⟨s, pre', l', post', g1, g2, g3, g4⟩ := Cursor.new_spec ha.breaks (p := 0) (Nat.zero_le _)
  refine ⟨⟨t, s, 0, 0, t.root.measure linesMetric + s.root.measure breaksMetric + 1, t.root.len⟩, ?_, ⟨⟨⟨e3, .inl ⟨_, _, _, e2⟩⟩,
    ⟨g3, .inl ⟨_, _, _, g2⟩⟩, by simp only [e3, hl1], ?_⟩, by simp [e4], .inl e4, .inl g4, fun _ => e4, fun _ => .inl rfl⟩, rfl, rfl⟩
  · simp only [new]
    rw [if_neg (by rw [hl1, hl2, ha.len]; simp)]
    simp [e1, g1]
  · simp only [e3, g3]
    rw [Rope.measure_lines ha.text]
    obtain ⟨n, hw⟩ := ha.breaks
    rw [hw.measure counts_breaks]
    simp only [lineIndex, List.take_length]
    rw [← ha.len, List.take_length]

theorem offsetOfLine_spec (ha : Agree r b) {m : MergedBreaks} (hi : Inv r b m) (hl : m.curLine = lineIndex r.text b.text m.offset)
    (hst : m.offset = 0 ∨ Starts r.text b.text m.offset) (line : Nat) :
    ∃ m' o, m.offsetOfLine line = some (m', o) ∧ Usable r b m' ∧
      (line ≤ lineIndex r.text b.text r.text.length → LineAt r.text b.text line o) ∧
      (lineIndex r.text b.text r.text.length < line → o = r.text.length) := by
  unfold offsetOfLine
  by_cases c0 : line = 0
  · rw [if_pos c0]
    exact ⟨m, 0, rfl, hi.toUsable, fun _ => .inl ⟨c0, rfl⟩, by omega⟩
  rw [if_neg c0]
  have htot := hi.total
  by_cases c1 : line ≥ m.totalLines
  · rw [if_pos c1]
    refine ⟨m, _, rfl, hi.toUsable, by omega, fun _ => ?_⟩
    rw [hi.text.1, Rope.len_eq ha.text]
  rw [if_neg c1]
  have hle : m.offset ≤ r.text.length := by have := hi.text.le; have := hi.off; omega
  by_cases c2 : line = m.curLine
  · rw [if_pos c2]
    refine ⟨m, _, rfl, hi.toUsable, fun _ => .inr ⟨?_, hle, by omega⟩, by omega⟩
    rcases hst with h | h
    · rw [h, lineIndex_zero] at hl; omega
    · exact h
  rw [if_neg c2]
  by_cases c3 : line > m.curLine ∧ line - m.curLine < maxLinearDist
  · rw [if_pos c3]
    obtain ⟨m', o, e1, e2, e3⟩ := linear_spec ha hi hl c3.1 (by omega)
    exact ⟨m', o, e1, e2, fun _ => e3, by omega⟩
  · rw [if_neg c3]
    obtain ⟨m', o, e1, e2, e3⟩ := bsearch_spec ha (line := line) (m.len + 1) hi.toUsable (lo := 0) (hi := m.len)
      (by rw [lineIndex_zero]; omega) (by rw [hi.len]; omega) (by rw [hi.len]; omega) (by omega)
    exact ⟨m', o, e1, e2, fun _ => e3, by omega⟩

end MergedBreaks

namespace VisualLines

variable {r : Rope} {b : Breaks}

/-- What holds before each line is given. -/
structure Ready (r : Rope) (b : Breaks) (v : VisualLines) : Prop where
  inv : MergedBreaks.Inv r b v.cursor
  off : v.offset = v.cursor.offset
  start : v.offset = 0 ∨ Starts r.text b.text v.offset
  number : v.logicalLine = (r.text.take v.offset).count newline + 1
  len : v.len = r.text.length

theorem hard_iff {m : MergedBreaks} (hi : MergedBreaks.Inv r b m) (hst : m.offset = 0 ∨ Starts r.text b.text m.offset)
    (he : ¬ BreakAt b.text r.text.length) :
    m.isHardBreak = true ↔ m.offset = 0 ∨ LineBoundary r.text m.offset := by
  simp only [MergedBreaks.isHardBreak, beq_iff_eq]
  constructor
  · intro h
    rcases hi.hardOf h.symm with h1 | h1 | h1
    · exact .inl h1
    · exact .inr h1
    · rcases hst with h2 | h2 | h2
      · exact .inl h2
      · exact .inr h2
      · rw [h1] at h2; exact absurd h2 he
  · intro h; exact (hi.hardAt h).symm

theorem collect_end {m : MergedBreaks} (hb : b.text.length = r.text.length) (hi : MergedBreaks.Inv r b m) (ho : m.offset = r.text.length)
    {v : VisualLines} (hv : v.cursor = m) (he : v.eof = true) (fuel : Nat) : collect (fuel + 1) v = some [] := by
  obtain ⟨m', res, e1, e2, e3, e4⟩ := MergedBreaks.next_spec hb hi
  have : res = none := by
    rcases e4 with ⟨-, -, h, -⟩ | ⟨h, -⟩
    · have := e3.bound; omega
    · exact h
  subst this
  simp [collect, next, hv, e1, he]

theorem collect_spec (ha : Agree r b) (he : ¬ BreakAt b.text r.text.length) (fuel : Nat) : ∀ {v : VisualLines}, Ready r b v →
    v.eof = false → r.text.length + 2 ≤ fuel + v.offset → ∃ ls, collect fuel v = some ls ∧ LinesFrom r.text b.text v.offset ls := by
  induction fuel with
  | zero =>
    intro v hr _ hf
    have h1 := hr.inv.text.le
    have h2 := hr.inv.off
    have h3 := hr.off
    omega
  | succ fuel ih =>
    intro v hr hv hf
    have hoff := hr.off
    have hst := hr.start
    rw [hoff] at hst
    have hnum : (if v.cursor.isHardBreak then some v.logicalLine else none) = shownNumber r.text v.offset := by
      have := hard_iff hr.inv hst he
      rw [hoff, shownNumber]
      by_cases h : v.cursor.isHardBreak = true
      · rw [if_pos h, if_pos (this.1 h), hr.number, hoff]
      · rw [if_neg h, if_neg (fun h' => h (this.2 h'))]
    obtain ⟨m', res, e1, e2, e3, e4⟩ := MergedBreaks.next_spec ha.len hr.inv
    rw [← hoff] at e3 e4
    rcases e4 with ⟨rfl, h1, h2, h3⟩ | ⟨rfl, h1, h2, h3⟩
    · have hlog : ∀ v' : VisualLines, v'.cursor = m' → v'.logicalLine = v.logicalLine →
          (if v'.cursor.isHardBreak then v'.logicalLine + 1 else v'.logicalLine) = (r.text.take m'.offset).count newline + 1 := by
        intro v' c1 c2
        rw [c1, c2, hr.number]
        have := hard_iff e2 (.inr h1) he
        by_cases h : m'.isHardBreak = true
        · rw [if_pos h]
          have hB := (this.1 h).resolve_left (by omega)
          rw [count_take_hit _ _ hB.1 hB.2, count_take_gap r.text newline (o := v.offset) (p := m'.offset - 1) (by omega)
            (fun k k1 k2 e => e3.gap k k1 (by omega) (.inl ⟨by omega, e⟩))]
        · rw [if_neg h]
          have hB : ¬ LineBoundary r.text m'.offset := fun h' => h (this.2 (.inr h'))
          rw [count_take_gap r.text newline (o := v.offset) (p := m'.offset) (by omega) (fun k k1 k2 e => by
            by_cases hk : k = m'.offset
            · rw [hk] at e; exact hB ⟨by omega, e⟩
            · exact e3.gap k k1 (by omega) (.inl ⟨by omega, e⟩))]
      have hemit : v.next = some (⟨m', m'.offset, (r.text.take m'.offset).count newline + 1, v.len, v.eof⟩,
          some ⟨⟨v.offset, m'.offset⟩, shownNumber r.text v.offset⟩) := by
        simp only [next, e1, Option.bind_eq_bind, Option.bind_some, emit, Interval.new]
        rw [hnum, if_pos (by omega)]
        have := hlog { v with cursor := m' } rfl rfl
        simp only at this
        simp [this]
      obtain ⟨ls, g1, g2⟩ := ih (v := ⟨m', m'.offset, (r.text.take m'.offset).count newline + 1, v.len, v.eof⟩)
        ⟨e2, rfl, .inr h1, rfl, hr.len⟩ hv (by simp only; omega)
      refine ⟨_ :: ls, ?_, .more ⟨h2, e3.bound, h1, e3.gap⟩ g2⟩
      simp only [collect, hemit, Option.bind_eq_bind, Option.bind_some, g1]
      rfl
    · have hle : v.offset ≤ r.text.length := by
        have h1 := hr.inv.text.le
        have h2 := hr.inv.off
        omega
      obtain ⟨v', hemit, hc, hee⟩ : ∃ v', v.next = some (v', some ⟨⟨v.offset, r.text.length⟩, shownNumber r.text v.offset⟩) ∧ v'.cursor = m' ∧
          v'.eof = true := by
        refine ⟨⟨m', r.text.length, if m'.isHardBreak then v.logicalLine + 1 else v.logicalLine, v.len, true⟩, ?_, rfl, rfl⟩
        simp only [next, e1, Option.bind_eq_bind, Option.bind_some, emit, Interval.new, hv, hr.len]
        rw [hnum]
        simp [hle]
      obtain ⟨fuel', rfl⟩ : ∃ f, fuel = f + 1 := ⟨fuel - 1, by omega⟩
      have hend := collect_end ha.len e2 h1 hc hee fuel'
      refine ⟨[⟨⟨v.offset, r.text.length⟩, shownNumber r.text v.offset⟩], ?_, .last ?_⟩
      · rw [collect]
        simp only [hemit, Option.bind_eq_bind, Option.bind_some, hend]
        rfl
      · intro k k1 k2 hs
        by_cases hk : k = r.text.length
        · rw [hk] at hs k1
          rcases hs with hs | hs
          · rcases h3 with h3 | h3
            · omega
            · exact h3 hs
          · exact he hs
        · exact e3.gap k k1 (by omega) hs

end VisualLines

end Xi
