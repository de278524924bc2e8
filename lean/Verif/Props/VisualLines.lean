import Verif.Core.VisualLinesLemmas

/-!
# Visual lines (core-lib/src/linewrap.rs): C53
-/

namespace Xi

variable {r : Rope} {b : Breaks}

/-- **C53.** The visual line of an offset is the number of newlines before it and
of soft breaks up to it. -/
theorem C53_line_of_offset (wraps : Bool) (ha : Agree r b) (hw : wraps = false → ∀ k, ¬ BreakAt b.text k) (o : Nat)
    (ho : CharBoundary r.text o) : visualLineOfOffset wraps b r o = some (lineIndex r.text b.text o) := by
  have h1 := Rope.lineOfOffset_spec ha.text ho
  have h2 : o ≤ r.text.length := by
    obtain ⟨cs, ds, e1, e2⟩ := ho
    rw [e1]; simp [e2]
  simp only [visualLineOfOffset, h1, Option.bind_eq_bind, Option.bind_some]
  cases wraps with
  | true => simp [Breaks.count_spec ha.breaks (by rw [ha.len]; exact h2), lineIndex]
  | false =>
    have : (b.text.take o).count true = 0 := by
      rw [count_take_gap b.text true (o := 0) (p := o) (by omega) (fun k k1 _ e => hw rfl k ⟨k1, e⟩)]
      simp
    simp [lineIndex, this]

/-- **C53.** The offset of a visual line is the place where that line starts; lines
beyond the last have the end of the text. -/
theorem C53_offset_of_line (wraps : Bool) (ha : Agree r b) (hw : wraps = false → ∀ k, ¬ BreakAt b.text k) (n : Nat) :
    ∃ o, offsetOfVisualLine wraps b r n = some o ∧
      (n ≤ lineIndex r.text b.text r.text.length → LineAt r.text b.text n o) ∧
      (lineIndex r.text b.text r.text.length < n → o = r.text.length) := by
  cases wraps with
  | true =>
    obtain ⟨m, e1, e2, e3, e4⟩ := MergedBreaks.new_spec ha
    obtain ⟨m', o, g1, g2, g3⟩ := MergedBreaks.offsetOfLine_spec ha e2 (by rw [e3, e4, lineIndex_zero]) (.inl e4) n
    exact ⟨o, by simp [offsetOfVisualLine, e1, g1], g3⟩
  | false =>
    have hz : ∀ o, (b.text.take o).count true = 0 := by
      intro o
      rw [count_take_gap b.text true (o := 0) (p := o) (by omega) (fun k k1 _ e => hw rfl k ⟨k1, e⟩)]
      simp
    have hlen : lineIndex r.text b.text r.text.length = r.text.count newline := by simp [lineIndex, hz]
    simp only [offsetOfVisualLine, Rope.measure_lines ha.text, hlen]
    by_cases h0 : n = 0
    · subst h0
      exact ⟨0, by simp [Rope.offsetOfLine_zero], fun _ => .inl ⟨rfl, rfl⟩, by omega⟩
    · by_cases h1 : n ≤ r.text.count newline
      · obtain ⟨o, e1, e2, e3, e4, e5⟩ := Rope.offsetOfLine_spec ha.text (line := n) (by omega) h1
        refine ⟨o, ?_, fun _ => .inr ⟨.inl ⟨e4, e5⟩, e2, by simp [lineIndex, hz, e3]⟩, by omega⟩
        rw [Nat.min_eq_left (by omega)]; simpa using e1
      · refine ⟨r.text.length, ?_, by omega, fun _ => rfl⟩
        rw [Nat.min_eq_right (by omega)]
        simpa using Rope.offsetOfLine_last ha.text

/-- A visual line has one start only. -/
theorem C53_line_unique (ha : Agree r b) {n o o' : Nat} (h : LineAt r.text b.text n o) (h' : LineAt r.text b.text n o') : o = o' := by
  have key : ∀ {x y : Nat}, x < y → Starts r.text b.text y → lineIndex r.text b.text x < lineIndex r.text b.text y := by
    intro x y hxy hs
    have h1 := lineIndex_hit ha.apart (o := y - 1) (p := y) (by omega) hs (by omega)
    have h2 := lineIndex_mono (t := r.text) (b := b.text) (o := x) (p := y - 1) (by omega)
    omega
  have pos : ∀ {y : Nat}, Starts r.text b.text y → 0 < y := by
    rintro y (h | h)
    · exact h.1
    · exact h.1
  rcases h with ⟨rfl, rfl⟩ | ⟨h1, -, h2⟩
  · rcases h' with ⟨-, rfl⟩ | ⟨h1, -, h2⟩
    · rfl
    · have := key (pos h1) h1; omega
  · rcases h' with ⟨rfl, rfl⟩ | ⟨h1', -, h2'⟩
    · have := key (pos h1) h1; omega
    · rcases Nat.lt_trichotomy o o' with h | h | h
      · have := key h h1'; omega
      · exact h
      · have := key h h1; omega

theorem lineAt_char (ha : Agree r b) {n o : Nat} (h : LineAt r.text b.text n o) : CharBoundary r.text o ∧ lineIndex r.text b.text o = n := by
  rcases h with ⟨rfl, rfl⟩ | ⟨h1, -, h2⟩
  · exact ⟨(boundary_iff_spec (Rope.text_utf8 ha.text)).1 (by simp [isCharBoundary]), lineIndex_zero⟩
  · refine ⟨?_, h2⟩
    rcases h1 with h1 | h1
    · exact MergedBreaks.line_boundary_char ha.text h1
    · exact ha.chars _ h1

/-- **C53.** The two functions fit together: the line of the start of a line is that
line, and the start of the line of an offset is the nearest start of a line at or
before the offset. -/
theorem C53_inverse (wraps : Bool) (ha : Agree r b) (hw : wraps = false → ∀ k, ¬ BreakAt b.text k) :
    (∀ n, n ≤ lineIndex r.text b.text r.text.length →
      (offsetOfVisualLine wraps b r n).bind (visualLineOfOffset wraps b r) = some n) ∧
    (∀ o, CharBoundary r.text o → ∃ p, (visualLineOfOffset wraps b r o).bind (offsetOfVisualLine wraps b r) = some p ∧
      IsPrev (fun k => k = 0 ∨ Starts r.text b.text k) (o + 1) (some p)) := by
  constructor
  · intro n hn
    obtain ⟨o, e1, e2, -⟩ := C53_offset_of_line wraps ha hw n
    obtain ⟨h1, h2⟩ := lineAt_char ha (e2 hn)
    rw [e1, Option.bind_some, C53_line_of_offset wraps ha hw o h1, h2]
  · intro o ho
    have hol : o ≤ r.text.length := by
      obtain ⟨cs, ds, e1, e2⟩ := ho
      rw [e1]; simp [e2]
    obtain ⟨p, e1, e2, -⟩ := C53_offset_of_line wraps ha hw (lineIndex r.text b.text o)
    have e2 := e2 (lineIndex_mono hol)
    obtain ⟨-, e3⟩ := lineAt_char ha e2
    refine ⟨p, by rw [C53_line_of_offset wraps ha hw o ho, Option.bind_some, e1], ?_, ?_, ?_⟩
    · apply Classical.byContradiction
      intro hn
      rcases e2 with ⟨-, rfl⟩ | ⟨h1, -, h2⟩
      · omega
      · have h3 := lineIndex_hit ha.apart (o := p - 1) (p := p) (by omega) h1 (by omega)
        have h4 := lineIndex_mono (t := r.text) (b := b.text) (o := o) (p := p - 1) (by omega)
        omega
    · rcases e2 with ⟨-, h⟩ | ⟨h, -⟩
      · exact .inl h
      · exact .inr h
    · rintro k k1 k2 (rfl | h)
      · omega
      · have h3 := lineIndex_hit ha.apart (o := k - 1) (p := k) (by omega) h (by omega)
        have h4 := lineIndex_mono (t := r.text) (b := b.text) (o := p) (p := k - 1) (by omega)
        have h5 := lineIndex_mono (t := r.text) (b := b.text) (o := k) (p := o) (by omega)
        omega

/-- **C53.** Iterating over the visual lines from line `n` gives all of them, from
the start of line `n` to the end of the text, each from its start to the next, with
the number of the logical line on the first of each. -/
theorem C53_iter_lines (ha : Agree r b) (he : ¬ BreakAt b.text r.text.length) (n : Nat)
    (hn : n ≤ lineIndex r.text b.text r.text.length) :
    ∃ v o ls, iterLines b r n = some v ∧ LineAt r.text b.text n o ∧ v.collect (r.text.length + 2) = some ls ∧
      LinesFrom r.text b.text o ls := by
  obtain ⟨m, e1, e2, e3, e4⟩ := MergedBreaks.new_spec ha
  obtain ⟨m', o, g1, g2, g3, -⟩ := MergedBreaks.offsetOfLine_spec ha e2 (by rw [e3, e4, lineIndex_zero]) (.inl e4) n
  have g3 := g3 hn
  obtain ⟨g4, g5⟩ := lineAt_char ha g3
  have hst : o = 0 ∨ Starts r.text b.text o := by
    rcases g3 with ⟨-, h⟩ | ⟨h, -⟩
    · exact .inl h
    · exact .inr h
  have hol : o ≤ r.text.length := by
    rcases g3 with ⟨-, h⟩ | ⟨-, h, -⟩ <;> omega
  obtain ⟨m2, k1, k2, k3, k4, k5, k6⟩ := MergedBreaks.setOffset_spec ha g2 hol
  have ho : m2.offset = o := by
    apply Classical.byContradiction
    intro hne
    rcases hst with h | h
    · omega
    · exact k6 o (by omega) (Nat.le_refl _) h
  have hl := Rope.lineOfOffset_spec ha.text g4
  obtain ⟨ls, c1, c2⟩ := VisualLines.collect_spec ha he (r.text.length + 2)
    (v := ⟨m2, o, (r.text.take o).count newline + 1, r.len, false⟩) ⟨k2, ho.symm, hst, rfl, Rope.len_eq ha.text⟩ rfl
    (by simp only; omega)
  exact ⟨_, o, ls, by simp [iterLines, e1, g1, hl, k1], g3, c1, c2⟩

/-- Non-vacuity: the text `abc⏎defghi⏎` with soft breaks after `de` and `defg`. -/
def exampleVisualText : List UInt8 := [97, 98, 99, 10, 100, 101, 102, 103, 104, 105, 10]

def exampleVisual : Rope × Breaks := (.fromLeaf exampleVisualText, .fromLeaf ⟨11, [6, 8]⟩)

theorem exampleVisual_flags :
    exampleVisual.2.text = [false, false, false, false, false, true, false, true, false, false, false] := by decide +kernel

theorem exampleVisual_breaks (k : Nat) : BreakAt exampleVisual.2.text k ↔ k = 6 ∨ k = 8 := by
  rw [exampleVisual_flags]
  by_cases hk : k < 12
  · have : ∀ j : Fin 12, (0 < j.1 ∧ [false, false, false, false, false, true, false, true, false, false, false][j.1 - 1]? = some true) ↔
        j.1 = 6 ∨ j.1 = 8 := by decide
    exact this ⟨k, hk⟩
  · rw [BreakAt, List.getElem?_eq_none (by simp; omega)]
    simp; omega

theorem exampleVisual_text : exampleVisual.1.text = exampleVisualText := by
  simp [exampleVisual, Node.fromLeaf, Node.text, Node.leaves, LeafSpec.content]

theorem exampleVisual_agree : Agree exampleVisual.1 exampleVisual.2 := by
  have hu : Utf8 exampleVisualText := ⟨"abc\ndefghi\n".toList, by decide +kernel⟩
  have hr : exampleVisual.1.Balanced := ⟨0, ⟨hu, by decide⟩, rfl, rfl⟩
  have ht := exampleVisual_text
  have hB := exampleVisual_breaks
  refine ⟨hr, ⟨0, ?_, rfl, rfl⟩, by rw [exampleVisual_flags, ht]; rfl, ?_, ?_⟩
  · exact ⟨⟨by simp, by simp⟩, by simp⟩
  · intro k h1 h2
    rw [hB] at h2
    rw [ht, LineBoundary] at h1
    rcases h2 with rfl | rfl <;> simp [exampleVisualText, newline] at h1
  · intro k h
    rw [hB] at h
    rw [ht]
    refine (boundary_iff_spec hu).1 ?_
    rcases h with rfl | rfl <;> decide

example : ¬ BreakAt exampleVisual.2.text exampleVisual.1.text.length := by
  rw [exampleVisual_breaks, exampleVisual_text]
  decide

example : ((iterLines exampleVisual.2 exampleVisual.1 1).bind (·.collect 13)) =
    some [⟨⟨4, 6⟩, some 2⟩, ⟨⟨6, 8⟩, none⟩, ⟨⟨8, 11⟩, none⟩, ⟨⟨11, 11⟩, some 3⟩] := by decide +kernel

end Xi
