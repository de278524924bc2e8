import Verif.Core.RewrapRule
import Verif.Props.Wrap

/-!
# Filling lines (core-lib/src/linewrap.rs): C68
-/

namespace Xi

open Find Unicode Uax14 LinesState RewrapCtx

variable {W : Type} {ops : WidthOps W} {measure : List UInt8 → W} {maxWidth : W}

/-- What is known about the end `j` of a line, given the breaks `T` from its start `pos` on: the
line is as long as it can be. -/
def LineEnd (ops : WidthOps W) (width : Nat → Nat → W) (maxWidth : W) (lw : W) (pos : Nat) (T : List (Nat × Bool)) (j : Nat) : Prop :=
  ∃ T1 T2, T = T1 ++ T2 ∧ lastPos pos T1 = j ∧ (∀ b ∈ T1.dropLast, b.2 = false) ∧
    -- the next word does not fit
    ((∃ c T2', T2 = c :: T2' ∧ (∀ b ∈ T1, b.2 = false) ∧ ops.gt (lineWidth ops width lw pos (T1 ++ [c])) maxWidth = true ∧
        (T1 = [] ∨ ops.gt (lineWidth ops width lw pos T1) maxWidth = false)) ∨
    -- there is just one word, and it is too wide
      (∃ T0 b, T1 = T0 ++ [b] ∧ T2 ≠ [] ∧ b.2 = false ∧ ops.isZero (lineWidth ops width lw pos T0) = true ∧ ops.ge (width (lastPos pos T0) j) maxWidth = true) ∨
    -- it must end here
      (∃ T0 b, T1 = T0 ++ [b] ∧ b.2 = true ∧
        (ops.isZero (lineWidth ops width lw pos T0) = true ∨ ops.gt (lineWidth ops width lw pos T1) maxWidth = false)))

theorem lastPos_cons (pos : Nat) (b : Nat × Bool) (T : List (Nat × Bool)) : lastPos pos (b :: T) = lastPos b.1 T := by
  unfold lastPos
  rw [List.getLast?_cons]
  cases T.getLast? <;> rfl

theorem LineEnd.cons {width : Nat → Nat → W} {lw : W} {pos : Nat} {b : Nat × Bool} {T : List (Nat × Bool)} {j : Nat} (hb : b.2 = false)
    (hg : ops.gt (ops.add lw (width pos b.1)) maxWidth = false) (h : LineEnd ops width maxWidth (ops.add lw (width pos b.1)) b.1 T j) :
    LineEnd ops width maxWidth lw pos (b :: T) j := by
  obtain ⟨T1, T2, h1, h2, h3, h4⟩ := h
  refine ⟨b :: T1, T2, by rw [h1]; rfl, by rw [lastPos_cons]; exact h2, ?_, ?_⟩
  · intro c hc
    cases T1 with
    | nil => cases hc
    | cons d T1 =>
      rw [List.dropLast_cons_cons] at hc
      rcases List.mem_cons.1 hc with rfl | hc
      · exact hb
      · exact h3 c hc
  · rcases h4 with ⟨c, T2', e1, e2, e3, e4⟩ | ⟨T0, d, e1, e2, e3, e4, e5⟩ | ⟨T0, d, e1, e2, e3⟩
    · refine .inl ⟨c, T2', e1, ?_, e3, .inr ?_⟩
      · intro x hx
        rcases List.mem_cons.1 hx with rfl | hx
        · exact hb
        · exact e2 x hx
      · rcases e4 with e4 | e4
        · rw [e4]; exact hg
        · exact e4
    · exact .inr (.inl ⟨b :: T0, d, by rw [e1]; rfl, e2, e3, e4, by rw [lastPos_cons]; exact e5⟩)
    · exact .inr (.inr ⟨b :: T0, d, by rw [e1]; rfl, e2, e3⟩)

theorem fill_line (hl : ops.Laws) {width : Nat → Nat → W} : ∀ (T : List (Nat × Bool)) (lw : W) {pos j : Nat},
    fill ops width maxWidth lw pos T = some j → LineEnd ops width maxWidth lw pos T j := by
  intro T
  induction T with
  | nil => intro lw pos j h; cases h
  | cons b T ih =>
    intro lw pos j h
    rw [fill] at h
    split at h
    · rename_i hb
      split at h
      · rename_i hz
        rw [Bool.and_eq_true] at hz
        split at h
        · cases h
        · rename_i hT
          injection h with h
          subst h
          exact ⟨[b], T, rfl, rfl, by simp, .inr (.inl ⟨[], b, rfl, by simpa using hT, hb, hz.1, hz.2⟩)⟩
      · split at h
        · rename_i hg
          injection h with h
          subst h
          exact ⟨[], b :: T, rfl, rfl, by simp, .inl ⟨b, T, rfl, by simp, hg, .inl rfl⟩⟩
        · rename_i hg
          exact (ih _ h).cons hb (by simpa using hg)
    · rename_i hb
      split at h
      · rename_i hg
        rw [Bool.and_eq_true] at hg
        injection h with h
        subst h
        exact ⟨[], b :: T, rfl, rfl, by simp, .inl ⟨b, T, rfl, by simp, by rw [List.nil_append, lineWidth, lineWidth, hl.comm]; exact hg.2, .inl rfl⟩⟩
      · rename_i hg
        injection h with h
        subst h
        refine ⟨[b], T, rfl, rfl, by simp, .inr (.inr ⟨[], b, rfl, by simpa using hb, ?_⟩)⟩
        simp only [Bool.and_eq_true, not_and, Bool.not_eq_true, Bool.not_eq_eq_eq_not, Bool.not_true] at hg
        by_cases h0 : ops.isZero lw = true
        · exact .inl h0
        · right
          rw [lineWidth, lineWidth, hl.comm]
          exact hg (by simpa using h0)

theorem fill_rest {width : Nat → Nat → W} : ∀ (T : List (Nat × Bool)) (lw : W) {pos : Nat}, fill ops width maxWidth lw pos T = none →
    (∀ b ∈ T, b.2 = false) ∧ (T = [] ∨ ops.gt (lineWidth ops width lw pos T) maxWidth = false ∨
      ∃ T0 b, T = T0 ++ [b] ∧ ops.isZero (lineWidth ops width lw pos T0) = true) := by
  intro T
  induction T with
  | nil => intro lw pos _; exact ⟨by simp, .inl rfl⟩
  | cons b T ih =>
    intro lw pos h
    rw [fill] at h
    split at h
    · rename_i hb
      split at h
      · rename_i hz
        rw [Bool.and_eq_true] at hz
        split at h
        · rename_i hT
          rw [List.isEmpty_iff] at hT
          subst hT
          exact ⟨by simpa using hb, .inr (.inr ⟨[], b, rfl, hz.1⟩)⟩
        · cases h
      · split at h
        · cases h
        · rename_i hg
          obtain ⟨h1, h2⟩ := ih _ h
          refine ⟨?_, .inr ?_⟩
          · intro x hx
            rcases List.mem_cons.1 hx with rfl | hx
            · exact hb
            · exact h1 x hx
          · rcases h2 with h2 | h2 | ⟨T0, c, e1, e2⟩
            · subst h2; left; show ops.gt (ops.add lw (width pos b.1)) maxWidth = false; simpa using hg
            · exact .inl h2
            · exact .inr ⟨b :: T0, c, by rw [e1]; rfl, e2⟩
    · split at h <;> cases h

/-- The breaks of a line after `i`. -/
def breaksAfter (s : List UInt8) (i : Nat) : List (Nat × Bool) := (lineStream s).filter fun b => decide (i < b.1)

/-- **C68**.  Each line that the rule makes is as long as it can be: it is within the width or
is a word by itself, and the next word does not fit or it must end. -/
theorem C68_longest (hl : ops.Laws) {s : List UInt8} (hs : Utf8 s) {i j : Nat} (h : fillRule ops measure maxWidth s i = some j) :
    LineEnd ops (fun a b => measure ((s.take b).drop a)) maxWidth ops.zero i (breaksAfter s i) j := by
  rw [fillRule, if_pos hs] at h
  exact fill_line hl _ _ h

/-- **C68**.  What is not broken any more is within the width or a word by itself. -/
theorem C68_rest {s : List UInt8} (hs : Utf8 s) {i : Nat} (h : fillRule ops measure maxWidth s i = none) :
    (∀ b ∈ breaksAfter s i, b.2 = false) ∧ (breaksAfter s i = [] ∨
      ops.gt (lineWidth ops (fun a b => measure ((s.take b).drop a)) ops.zero i (breaksAfter s i)) maxWidth = false ∨
      ∃ T0 b, breaksAfter s i = T0 ++ [b] ∧ ops.isZero (lineWidth ops (fun a b => measure ((s.take b).drop a)) ops.zero i T0) = true) := by
  rw [fillRule, if_pos hs] at h
  exact fill_rest _ _ h

/-- **C68**.  Filling lines is a rule as C54 and C55 assume. -/
theorem C68_rule (hl : ops.Laws) (measure : List UInt8 → W) (maxWidth : W) : (fillRule ops measure maxWidth).Ok := fillRule_ok hl measure maxWidth

/-- The states of the real code: the breaks are found by `RewrapCtx`.  No line of the texts
starts with a joiner: see `C68_joiner_refuted`. -/
inductive FillRun (ops : WidthOps W) : (List UInt8 → W) → W → Rope → LinesState → Prop
  | start {measure : List UInt8 → W} {maxWidth : W} {r : Rope} {L : LinesState} {wraps differs : Bool} (hb : r.Balanced) (hL : L.breaks.len = 0) :
      FillRun ops measure maxWidth r (L.setWrapWidth r wraps differs)
  | width {measure measure' : List UInt8 → W} {maxWidth maxWidth' : W} {r : Rope} {L : LinesState} {wraps differs : Bool} (h : FillRun ops measure maxWidth r L)
      (hd : L.wraps ≠ wraps → differs = true) : FillRun ops measure' maxWidth' r (L.setWrapWidth r wraps differs)
  | chunk {measure : List UInt8 → W} {maxWidth : W} {r : Rope} {L L' : LinesState} {vis vis' : Nat} {i : Option InvalLines} {cs : List Char}
      (h : FillRun ops measure maxWidth r L) (hv : vis ≤ vis') (ht : r.text = enc cs) (hj : NoJoiner cs)
      (e : L.rewrapChunkCtx ops measure maxWidth r r.text vis vis' = some (L', i)) : FillRun ops measure maxWidth r L'
  | edit {measure : List UInt8 → W} {maxWidth : W} {r r' : Rope} {L L' : LinesState} {iv : Interval} {ins : List UInt8} {vis vis' : Nat} {i : Option InvalLines}
      {cs : List Char} (h : FillRun ops measure maxWidth r L) (hb : r'.Balanced) (ht : r'.text = r.text.take iv.start ++ ins ++ r.text.drop iv.stop)
      (hiv : iv.start ≤ iv.stop) (c1 : CharBoundary r.text iv.start) (c2 : CharBoundary r.text iv.stop) (hv : vis ≤ vis')
      (ho : L.wraps = true → InOrder L.work) (hcs : r'.text = enc cs) (hj : NoJoiner cs)
      (e : L.afterEditCtx ops measure maxWidth r' r r'.text iv ins.length vis vis' = some (L', i)) : FillRun ops measure maxWidth r' L'

theorem rewrapChunkCtx_eq {rule : WrapRule} {r : Rope} {L : LinesState} (hi : L.Inv rule r) {cs : List Char} (ht : r.text = enc cs) (hj : NoJoiner cs) (vis vis' : Nat) :
    L.rewrapChunkCtx ops measure maxWidth r r.text vis vis' = L.rewrapChunk (fillRule ops measure maxWidth) r r.text vis vis' := by
  unfold rewrapChunkCtx rewrapChunk
  split
  · rfl
  · rename_i hc
    simp [isConverged] at hc
    rw [doWrapTaskCtx_eq ht hj hi hc.1 hc.2]

theorem afterEditCtx_eq {rule : WrapRule} {r r' : Rope} {L : LinesState} {iv : Interval} {N : Nat} (hi : L.Inv rule r) (hb : r'.Balanced)
    (he : Edited r.text r'.text iv.start iv.stop N) (c1 : CharBoundary r.text iv.start) (c2 : CharBoundary r.text iv.stop)
    (ho : L.wraps = true → InOrder L.work) {cs : List Char} (ht : r'.text = enc cs) (hj : NoJoiner cs) (vis vis' : Nat) :
    L.afterEditCtx ops measure maxWidth r' r r'.text iv N vis vis' = L.afterEdit (fillRule ops measure maxWidth) r' r r'.text iv N vis vis' := by
  obtain ⟨p, q, oe, b, w, h⟩ := editInfo hi.agree hb he c1 c2
  have hle := he.le
  have hl := hi.agree.len
  have hst := he.st
  have hlen := he.len
  have hpl := h.p_le
  have hoe := h.oe_le
  have hoe' := h.oe_eq
  have hql := h.q_le
  have hqg := h.q_ge
  obtain ⟨nb, n1, n2⟩ := h.edit
  have k1 : (r'.text.take iv.start).count newline ≤ (r.text.take iv.stop).count newline + 1 := by
    rw [he.left]
    have := count_take_le_take r.text newline hst
    omega
  have k2 : (r'.text.take iv.start).count newline ≤ (r'.text.take (iv.start + N)).count newline + 1 := by
    have := count_take_le_take r'.text newline (o := iv.start) (p := iv.start + N) (by omega)
    omega
  have k3 := count_take_le_take L.breaks.text true (o := p) (p := oe) (by omega)
  unfold afterEditCtx afterEdit
  simp only [h.line1, h.line2, h.line3, h.off1, h.off2, h.off3, Option.bind_eq_bind, Option.bind_some, checkedSub, k1, k2, if_true,
    Breaks.count_spec hi.agree.breaks (off := p) (by omega), Breaks.count_spec hi.agree.breaks (off := oe) (by omega), k3, n1, n2, h.work]
  by_cases hw : L.wraps = false
  · rw [if_pos hw, if_pos hw]
  · rw [if_neg hw, if_neg hw]
    have hw : L.wraps = true := by simpa using hw
    have hi2 := h.inv hi hb he hw (ho hw)
    have hpq : p ≤ q := by omega
    simp only [Interval.new, hpq, if_true, Option.bind_some]
    split
    · rename_i hne
      rw [doWrapTaskCtx_eq ht hj hi2 hw (by simpa using hne)]
    · rfl

/-- **C68** (partial).  The code fills lines: its states are those of C54 with this rule.
Missing: texts with a joiner at the start of a line. -/
theorem C68_run_partial (hl : ops.Laws) {r : Rope} {L : LinesState} (h : FillRun ops measure maxWidth r L) : WrapRun (fillRule ops measure maxWidth) r L := by
  induction h with
  | start hb hL => exact .start (fillRule_ok hl _ _) hb hL
  | width h hd ih => exact .width ih (fillRule_ok hl _ _) hd
  | chunk h hv ht hj e ih =>
    rw [rewrapChunkCtx_eq ih.inv ht hj] at e
    exact .chunk ih hv e
  | edit h hb ht hiv c1 c2 hv ho hcs hj e ih =>
    have hle : _ ≤ _ := ((boundary_iff (Rope.text_utf8 ih.inv.agree.text)).1 ((boundary_iff_spec (Rope.text_utf8 ih.inv.agree.text)).2 c2)).1
    rw [afterEditCtx_eq ih.inv hb (by rw [ht]; exact Edited.mk' hiv hle) c1 c2 ho hcs hj] at e
    exact .edit ih hb ht hiv c1 c2 hv ho e

/-- **C68** (partial).  Once the work is done, the soft breaks of the code are those of filling
each logical line by itself. -/
theorem C68_converged_partial (hl : ops.Laws) {r : Rope} {L : LinesState} (h : FillRun ops measure maxWidth r L) (hw : L.wraps = true) (hc : L.isConverged = true)
    (k : Nat) : BreakAt L.breaks.text k ↔ Soft (fillRule ops measure maxWidth) r.text k := C54_converged_partial (C68_run_partial hl h) hw hc k

/-- **C68** (partial).  The background work of the code does not panic. -/
theorem C68_chunk_safe_partial (hl : ops.Laws) {r : Rope} {L : LinesState} (h : FillRun ops measure maxWidth r L) {vis vis' : Nat} (hv : vis ≤ vis')
    {cs : List Char} (ht : r.text = enc cs) (hj : NoJoiner cs) : ∃ L' i, L.rewrapChunkCtx ops measure maxWidth r r.text vis vis' = some (L', i) := by
  rw [rewrapChunkCtx_eq (C68_run_partial hl h).inv ht hj]
  exact C54_chunk_safe_partial (C68_run_partial hl h) hv

/-- **C68** (partial).  Edits do not make the wrapping code panic. -/
theorem C68_edit_safe_partial (hl : ops.Laws) {r r' : Rope} {L : LinesState} {iv : Interval} {ins : List UInt8} {vis vis' : Nat}
    (h : FillRun ops measure maxWidth r L) (hb : r'.Balanced) (ht : r'.text = r.text.take iv.start ++ ins ++ r.text.drop iv.stop)
    (hiv : iv.start ≤ iv.stop) (c1 : CharBoundary r.text iv.start) (c2 : CharBoundary r.text iv.stop) (hv : vis ≤ vis')
    (ho : L.wraps = true → InOrder L.work) {cs : List Char} (hcs : r'.text = enc cs) (hj : NoJoiner cs) :
    ∃ L' i, L.afterEditCtx ops measure maxWidth r' r r'.text iv ins.length vis vis' = some (L', i) := by
  have hw := C68_run_partial hl h
  have hle : _ ≤ _ := ((boundary_iff (Rope.text_utf8 hw.inv.agree.text)).1 ((boundary_iff_spec (Rope.text_utf8 hw.inv.agree.text)).2 c2)).1
  rw [afterEditCtx_eq hw.inv hb (by rw [ht]; exact Edited.mk' hiv hle) c1 c2 ho hcs hj]
  exact C54_edit_safe_partial hw hb ht hiv c1 c2 hv ho

/-! ## Cases -/

/-- Widths that are numbers. -/
def natWidths : WidthOps Nat := ⟨0, (· + ·), fun a b => decide (b ≤ a), fun a b => decide (b < a), fun a => a == 0⟩

theorem natWidths_laws : natWidths.Laws where
  zero := rfl
  keeps := by
    intro l w m h1 h2
    simp [natWidths] at *
    omega
  comm := by intro l w; exact Nat.add_comm l w

/-- One byte is one wide. -/
def byteWidth (s : List UInt8) : Nat := s.length

/-- A text of two lines. -/
def twoLines : List Char := ['a', ' ', 'b', ' ', '\n', 'c', ' ', 'd', '\n']

theorem twoLines_noJoiner : NoJoiner twoLines := by
  have all : ∀ y ∈ twoLines, lbProperty y ≠ some 42 := by decide +kernel
  intro X y Y e
  exact all y (by rw [e]; simp)

/-- The hypotheses can be met: all is wrapped, and there are two soft breaks. -/
example : ∃ L i, FillRun natWidths byteWidth 3 (.fromLeaf (enc twoLines)) L ∧ L.isConverged = true ∧
    L.breaks.text = [false, true, false, false, false, false, true, false, false] ∧ i = some (⟨0, 3, 5⟩ : InvalLines) := by
  have hres : ((freshLines.setWrapWidth (.fromLeaf (enc twoLines)) true true).rewrapChunkCtx natWidths byteWidth 3 (.fromLeaf (enc twoLines)) (enc twoLines) 0 5).map
      (fun x => (x.1.isConverged, x.1.breaks.text, x.2)) =
      some (true, [false, true, false, false, false, false, true, false, false], some ⟨0, 3, 5⟩) := by decide +kernel
  obtain ⟨⟨L, i⟩, e1, e2⟩ := Option.map_eq_some_iff.1 hres
  simp only [Prod.mk.injEq] at e2
  have ht : (.fromLeaf (enc twoLines) : Rope).text = enc twoLines := Node.text_fromLeaf
  have h0 : FillRun natWidths byteWidth 3 (.fromLeaf (enc twoLines)) (freshLines.setWrapWidth (.fromLeaf (enc twoLines)) true true) :=
    .start ⟨0, Node.wf_fromLeaf ⟨⟨_, rfl⟩, by decide +kernel⟩⟩ (by decide +kernel)
  exact ⟨L, i, .chunk (vis := 0) (vis' := 5) h0 (by decide) ht twoLines_noJoiner (by rw [ht]; exact e1), e2.1, e2.2.1, e2.2.2⟩

/-- A line that starts with a joiner, and what is there before the last character is typed. -/
def joinerText : Rope := .fromLeaf (enc ['\n', '‍', '😀'])
def joinerStart : Rope := .fromLeaf (enc ['\n', '‍'])

/-- **C68** does not hold in full: with a joiner at the start of a line, the breaks depend on how
the text came to be.  Wrapped as a whole there is a break after the joiner; if the last
character is typed, there is none. -/
theorem C68_joiner_refuted : ∃ L L' : LinesState, ∃ L0 : LinesState, ∃ i i' i0,
    (freshLines.setWrapWidth joinerText true true).rewrapChunkCtx natWidths byteWidth 4 joinerText joinerText.text 0 5 = some (L, i) ∧
    (freshLines.setWrapWidth joinerStart true true).rewrapChunkCtx natWidths byteWidth 4 joinerStart joinerStart.text 0 5 = some (L0, i0) ∧
    L0.afterEditCtx natWidths byteWidth 4 joinerText joinerStart joinerText.text ⟨4, 4⟩ 4 0 5 = some (L', i') ∧
    L.isConverged = true ∧ L'.isConverged = true ∧ BreakAt L.breaks.text 4 ∧ ¬ BreakAt L'.breaks.text 4 := by
  have h1 : ((freshLines.setWrapWidth joinerText true true).rewrapChunkCtx natWidths byteWidth 4 joinerText joinerText.text 0 5).map
      (fun x => (x.1.isConverged, x.1.breaks.text)) = some (true, [false, false, false, true, false, false, false, false]) := by decide +kernel
  have h2 : ((freshLines.setWrapWidth joinerStart true true).rewrapChunkCtx natWidths byteWidth 4 joinerStart joinerStart.text 0 5).bind
      (fun y => (y.1.afterEditCtx natWidths byteWidth 4 joinerText joinerStart joinerText.text ⟨4, 4⟩ 4 0 5).map
        (fun x => (x.1.isConverged, x.1.breaks.text))) = some (true, [false, false, false, false, false, false, false, false]) := by decide +kernel
  obtain ⟨⟨L, i⟩, e1, e2⟩ := Option.map_eq_some_iff.1 h1
  obtain ⟨⟨L0, i0⟩, e3, e4⟩ := Option.bind_eq_some_iff.1 h2
  obtain ⟨⟨L', i'⟩, e5, e6⟩ := Option.map_eq_some_iff.1 e4
  simp only [Prod.mk.injEq] at e2 e6
  refine ⟨L, L', L0, i, i', i0, e1, e3, e5, e2.1, e6.1, ?_, ?_⟩
  · rw [e2.2]; exact ⟨by decide, by decide⟩
  · rw [e6.2]; rintro ⟨-, h⟩; exact absurd h (by decide)

end Xi
