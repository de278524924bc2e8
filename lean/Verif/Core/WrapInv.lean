import Verif.Core.WrapLemmas
import Verif.Props.Breaks
import Verif.Props.WrapTasks

/-!
# Lemmas on incremental wrapping
-/

namespace Xi

variable {rule : WrapRule}

/-! ## The builder -/

/-- The builder holds these flags. -/
def BreakBuilder.Text (b : BreakBuilder) (fl : List Bool) : Prop :=
  ∃ t, b.b.Holds t ∧ b.leaf.Ok ∧ t ++ b.leaf.flags = fl

theorem flags_blank (n : Nat) : BreaksLeaf.flags ⟨n, []⟩ = List.replicate n false := by
  simp [BreaksLeaf.flags, List.map_const']

theorem flags_one {n : Nat} (h : 0 < n) : BreaksLeaf.flags ⟨n, [n]⟩ = List.replicate (n - 1) false ++ [true] := by
  obtain ⟨m, rfl⟩ : ∃ m, n = m + 1 := ⟨n - 1, by omega⟩
  simp only [BreaksLeaf.flags, List.range_succ, List.map_append, List.map_cons, List.map_nil, Nat.add_sub_cancel]
  congr 1
  · rw [List.eq_replicate_iff]
    refine ⟨by simp, fun b hb => ?_⟩
    simp only [List.mem_map, List.mem_range] at hb
    obtain ⟨a, h1, rfl⟩ := hb
    simp; omega
  · simp

theorem BreakBuilder.text_new : BreakBuilder.new.Text [] := ⟨[], TreeBuilder.holds_new, BreaksLeaf.blank_ok 0, rfl⟩

theorem BreakBuilder.Text.noBreak {b : BreakBuilder} {fl : List Bool} (h : b.Text fl) (n : Nat) :
    (b.addNoBreak n).Text (fl ++ List.replicate n false) := by
  obtain ⟨t, h1, h2, h3⟩ := h
  obtain ⟨o1, f1⟩ := BreaksLeaf.blank_snoc (n := n) h2.toOrdered
  refine ⟨t, h1, ⟨o1, h2.size⟩, ?_⟩
  show t ++ BreaksLeaf.flags ⟨_, _⟩ = _
  rw [f1, ← List.append_assoc, h3, flags_blank]

theorem BreakBuilder.Text.brk {b : BreakBuilder} {fl : List Bool} (h : b.Text fl) {n : Nat} (hn : 0 < n) :
    ∃ b', b.addBreak n = some b' ∧ b'.Text (fl ++ (List.replicate (n - 1) false ++ [true])) := by
  obtain ⟨t, h1, h2, h3⟩ := h
  simp only [BreakBuilder.addBreak, Breaks.maxLeaf]
  by_cases hfull : b.leaf.data.length = 64
  · obtain ⟨tb, e1, e2⟩ := TreeBuilder.push_spec h1 (Node.wf_fromLeaf (I := BreaksInfo) h2)
    rw [Node.text_fromLeaf] at e2
    have hok : BreaksLeaf.Ok ⟨0 + n, [] ++ [0 + n]⟩ := ⟨⟨by simp, by simp; omega⟩, by simp⟩
    refine ⟨⟨tb, ⟨0 + n, [] ++ [0 + n]⟩⟩, by rw [if_pos hfull]; simp [e1], t ++ b.leaf.flags, e2, hok, ?_⟩
    rw [← flags_one hn, ← h3]
    simp
  · obtain ⟨o1, f1⟩ := BreaksLeaf.snoc_ok (n := n) h2.toOrdered hn
    have := h2.size
    refine ⟨⟨b.b, ⟨b.leaf.len + n, b.leaf.data ++ [b.leaf.len + n]⟩⟩, by rw [if_neg hfull]; rfl, t, h1, ⟨o1, by simp; omega⟩, ?_⟩
    show t ++ BreaksLeaf.flags ⟨_, _⟩ = _
    rw [f1, ← flags_one hn, ← h3]
    simp

theorem BreakBuilder.Text.build {b : BreakBuilder} {fl : List Bool} (h : b.Text fl) :
    ∃ r, b.build = some r ∧ r.Balanced ∧ r.text = fl := by
  obtain ⟨t, h2, h3, h4⟩ := h
  obtain ⟨tb, e2, h6⟩ := TreeBuilder.push_spec h2 (Node.wf_fromLeaf (I := BreaksInfo) h3)
  obtain ⟨r, e3, h7, h8⟩ := TreeBuilder.build_spec h6
  refine ⟨r, by simp [BreakBuilder.build, e2, e3], h8, ?_⟩
  rw [h7, Node.text_fromLeaf, ← h4]
  rfl

theorem breakAt_append {a b : List Bool} {k : Nat} : BreakAt (a ++ b) k ↔ k ≤ a.length ∧ BreakAt a k ∨ a.length < k ∧ BreakAt b (k - a.length) := by
  simp only [BreakAt]
  by_cases h : k ≤ a.length
  · by_cases h0 : 0 < k
    · rw [List.getElem?_append_left (by omega)]
      grind
    · grind
  · rw [List.getElem?_append_right (by omega), show k - 1 - a.length = k - a.length - 1 by omega]
    grind

theorem breakAt_blank (n k : Nat) : ¬ BreakAt (List.replicate n false) k := by
  simp [BreakAt, List.getElem?_replicate]

theorem breakAt_one {n k : Nat} (hn : 0 < n) : BreakAt (List.replicate (n - 1) false ++ [true]) k ↔ k = n := by
  rw [breakAt_append, List.length_replicate]
  constructor
  · rintro (⟨-, h⟩ | ⟨h1, h2, h3⟩)
    · exact absurd h (breakAt_blank _ _)
    · have := (List.getElem?_eq_some_iff.1 h3).1
      simp at this
      omega
  · rintro rfl
    right
    refine ⟨by omega, by omega, ?_⟩
    rw [show k - (k - 1) - 1 = 0 by omega]; rfl

/-! ## The loop -/

/-- The start or the end of a logical line. -/
def Edge (t : List UInt8) (k : Nat) : Prop := k = 0 ∨ k = t.length ∨ LineBoundary t k

namespace LinesState

/-- The flags from `a` on are right. -/
def FlagsOk (rule : WrapRule) (t : List UInt8) (a : Nat) (fl : List Bool) : Prop :=
  ∀ k, a < k → k ≤ a + fl.length → (BreakAt fl (k - a) ↔ Soft rule t k)

theorem flagsOk_nil {t : List UInt8} {a : Nat} : FlagsOk rule t a [] := by
  intro k k1 k2; simp at k2; omega

theorem FlagsOk.snoc {t : List UInt8} {a : Nat} {fl : List Bool} (h : FlagsOk rule t a fl) {n : Nat} (hn : 0 < n)
    (hs : Soft rule t (a + fl.length + n)) (hg : ∀ k, a + fl.length < k → k < a + fl.length + n → ¬ Soft rule t k) :
    FlagsOk rule t a (fl ++ (List.replicate (n - 1) false ++ [true])) := by
  intro k k1 k2
  simp only [List.length_append, List.length_replicate, List.length_singleton] at k2
  rw [breakAt_append]
  by_cases hk : k ≤ a + fl.length
  · have := h k k1 hk
    grind
  · rw [breakAt_one hn]
    by_cases he : k = a + fl.length + n
    · subst he
      simp only [hs, iff_true]
      right; omega
    · have := hg k (by omega) (by omega)
      simp only [this, iff_false]
      omega

theorem FlagsOk.blank {t : List UInt8} {a : Nat} {fl : List Bool} (h : FlagsOk rule t a fl) {n : Nat}
    (hg : ∀ k, a + fl.length < k → k ≤ a + fl.length + n → ¬ Soft rule t k) :
    FlagsOk rule t a (fl ++ List.replicate n false) := by
  intro k k1 k2
  simp only [List.length_append, List.length_replicate] at k2
  rw [breakAt_append]
  have hb := breakAt_blank n (k - a - fl.length)
  by_cases hk : k ≤ a + fl.length
  · have := h k k1 hk
    grind
  · have := hg k (by omega) (by omega)
    grind

/-- The cursor over the old lines: it is at its result. -/
def OldOk (len : Nat) (c : MergedBreaks) (old : Option Nat) : Prop := old = some c.offset ∨ old = none ∧ c.offset = len

theorem advanceOld_spec {r : Rope} {b : Breaks} (hb : b.text.length = r.text.length) {n : Nat} (hn : n ≤ r.text.length) (fuel : Nat) :
    ∀ {c : MergedBreaks} {old : Option Nat}, c.Inv r b → (∀ k, n ≤ k → k < c.offset → ¬ Starts r.text b.text k) → OldOk r.text.length c old →
      r.text.length + 2 ≤ fuel + (if old = none then r.text.length + 1 else c.offset) →
    ∃ c' old', advanceOld n fuel c old = some (c', old') ∧ c'.Inv r b ∧ (∀ k, n ≤ k → k < c'.offset → ¬ Starts r.text b.text k) ∧
      OldOk r.text.length c' old' ∧ n ≤ c'.offset := by
  induction fuel with
  | zero =>
    intro c old hi _ ho hf
    exfalso
    have h1 := hi.text.le
    have h2 := hi.off
    split at hf <;> omega
  | succ fuel ih =>
    intro c old hi hg ho hf
    rcases ho with rfl | ⟨rfl, ho⟩
    · rw [advanceOld]
      by_cases h : c.offset ≥ n
      · rw [if_pos h]
        exact ⟨c, _, rfl, hi, hg, .inl rfl, h⟩
      · rw [if_neg h]
        obtain ⟨c', res, e1, e2, e3, e4⟩ := MergedBreaks.next_spec hb hi
        rw [e1]
        simp only [Option.bind_eq_bind, Option.bind_some]
        simp only [reduceCtorEq, if_false] at hf
        refine ih e2 (fun k k1 k2 => e3.gap k (by omega) k2) ?_ ?_
        · rcases e4 with ⟨rfl, -⟩ | ⟨rfl, h, -⟩
          · exact .inl rfl
          · exact .inr ⟨rfl, h⟩
        · rcases e4 with ⟨rfl, -, h, -⟩ | ⟨rfl, h, -⟩
          · simp only [reduceCtorEq, if_false]; omega
          · simp only [if_true]; omega
    · exact ⟨c, none, rfl, hi, hg, .inr ⟨rfl, ho⟩, by omega⟩

theorem isHard_iff {r : Rope} {b : Breaks} {c : MergedBreaks} {n : Nat} (hi : c.Inv r b) (h0 : 0 < n) (hn : n ≤ c.offset)
    (hg : ∀ k, n ≤ k → k < c.offset → ¬ Starts r.text b.text k) (hs : Soft rule r.text n ∨ LineBoundary r.text n) :
    isHard c n = true ↔ LineBoundary r.text n := by
  simp only [isHard, MergedBreaks.isHardBreak, Bool.and_eq_true, beq_iff_eq]
  constructor
  · rintro ⟨rfl, h⟩
    rcases hi.hardOf h.symm with h1 | h1 | h1
    · omega
    · exact h1
    · rcases hs with hs | hs
      · have := hs.pos; omega
      · exact hs
  · intro h
    have : c.offset = n := by
      apply Classical.byContradiction
      intro hne
      exact hg n (Nat.le_refl _) (by omega) (.inl h)
    refine ⟨this, ?_⟩
    rw [hi.hardAt (.inr (this ▸ h))]

theorem wrapLoop_spec (hr : rule.Ok) {r : Rope} {b : Breaks} (hb : b.text.length = r.text.length) (hrb : r.Balanced) {a stop batch : Nat} (he : Edge r.text stop) (fuel : Nat) :
    ∀ {pos lines : Nat} {bd : BreakBuilder} {c : MergedBreaks} {old : Option Nat} {fl : List Bool}, AtBreak rule r.text pos → pos ≤ r.text.length →
      bd.Text fl → a + fl.length = pos → FlagsOk rule r.text a fl → c.Inv r b → (∀ k, pos < k → k < c.offset → ¬ Starts r.text b.text k) →
      OldOk r.text.length c old → r.text.length + 1 ≤ fuel + pos →
    ∃ bd' fl', wrapLoop rule r r.text stop batch fuel pos lines bd c old = some bd' ∧ bd'.Text fl' ∧ FlagsOk rule r.text a fl' ∧
      a + fl'.length ≤ r.text.length ∧ Edge r.text (a + fl'.length) ∧ (pos < r.text.length → pos < a + fl'.length) ∧ pos ≤ a + fl'.length ∧
      (pos < stop → a + fl'.length ≤ stop) := by
  induction fuel with
  | zero => intro pos _ _ _ _ _ _ h1 _ _ _ _ _ _ h2; omega
  | succ fuel ih =>
    intro pos lines bd c old fl hat hp ht ha hf hi hg ho hfuel
    rw [wrapLoop]
    split
    · rename_i n hn
      obtain ⟨n1, n2, n3, n4⟩ := wrap_some hr hat hn
      obtain ⟨c', old', e1, i1, g1, o1, l1⟩ := advanceOld_spec hb n2 (r.text.length + 2) hi (fun k k1 k2 => hg k (by omega) k2) ho (by omega)
      simp only [e1, Option.bind_eq_bind, Option.bind_some, checkedSub, Nat.le_of_lt n1, if_true]
      have hh := isHard_iff i1 (by omega) l1 g1 n3
      have hns : pos < stop → n ≤ stop := by
        intro h
        apply Classical.byContradiction
        intro hlt
        rcases he with he | he | he
        · omega
        · omega
        · exact (n4 stop h (by omega)).2 he
      have hadd : ∃ bd' fl', addLine bd (isHard c' n) (n - pos) = some bd' ∧ bd'.Text fl' ∧ FlagsOk rule r.text a fl' ∧ a + fl'.length = n := by
        rw [addLine]
        by_cases hard : isHard c' n = true
        · rw [if_pos hard]
          refine ⟨_, _, rfl, ht.noBreak _, hf.blank (fun k k1 k2 => ?_), by simp; omega⟩
          by_cases hk : k = n
          · subst hk
            exact fun hs => hs.apart (hh.1 hard)
          · exact (n4 k (by omega) (by omega)).1
        · rw [if_neg hard]
          have hs : Soft rule r.text n := by
            rcases n3 with h | h
            · exact h
            · exact absurd (hh.2 h) hard
          obtain ⟨bd', e, ht'⟩ := ht.brk (n := n - pos) (by omega)
          refine ⟨bd', _, e, ht', hf.snoc (by omega) ?_ (fun k k1 k2 => (n4 k (by omega) (by omega)).1), by simp; omega⟩
          rwa [show a + fl.length + (n - pos) = n by omega]
      obtain ⟨bd', fl', e2, ht', hf', hl'⟩ := hadd
      rw [e2]
      simp only [Option.bind_some]
      split
      · rename_i hstop
        refine ⟨bd', fl', rfl, ht', hf', by omega, ?_, by omega, by omega, fun h => by rw [hl']; exact hns h⟩
        rw [hl']
        rcases hstop with h | ⟨-, h⟩
        · rw [h]; exact he
        · exact .inr (.inr (hh.1 h))
      · have hat' : AtBreak rule r.text n := by
          rcases n3 with h | h
          · exact h.atBreak
          · exact atBreak_start n2 (.inr h)
        obtain ⟨bd2, fl2, q1, q2, q3, q4, q5, q6, q7, q8⟩ := ih (lines := lines + 1) hat' n2 ht' hl' hf' i1 (fun k k1 k2 => g1 k (by omega) k2) o1 (by omega)
        refine ⟨bd2, fl2, q1, q2, q3, q4, q5, by omega, by omega, fun h => ?_⟩
        have := hns h
        by_cases hsn : n = stop
        · rename_i hstop
          exact absurd (.inl hsn) hstop
        · exact q8 (by omega)
    · rename_i hn
      have hn' := wrap_none hr hat hn
      rw [Rope.len_eq hrb]
      simp only [checkedSub, hp, if_true, Option.bind_eq_bind, Option.bind_some]
      refine ⟨_, _, rfl, ht.noBreak _, hf.blank (fun k k1 k2 => (hn' k (by omega) (by omega)).1), ?_, ?_, ?_, ?_, ?_⟩
      · simp; omega
      · right; left; simp; omega
      · simp; omega
      · simp; omega
      · intro h
        simp only [List.length_append, List.length_replicate]
        apply Classical.byContradiction
        intro hlt
        rcases he with he | he | he
        · omega
        · omega
        · exact (hn' stop h (by omega)).2 he

/-! ## One task -/

/-- What holds of the state at all times. -/
structure Inv (rule : WrapRule) (r : Rope) (L : LinesState) : Prop where
  agree : Agree r L.breaks
  tasks : L.wraps = true → ∀ t ∈ L.work, t.start < t.stop ∧ t.stop ≤ r.text.length ∧ Edge r.text t.start ∧ Edge r.text t.stop
  done : L.wraps = true → ∀ k, 0 < k → ¬ Pending L.work (k - 1) → (BreakAt L.breaks.text k ↔ Soft rule r.text k)
  plain : L.wraps = false → ∀ k, ¬ BreakAt L.breaks.text k

theorem edge_char {r : Rope} (hr : r.Balanced) {k : Nat} (h : Edge r.text k) : CharBoundary r.text k := by
  rcases h with rfl | rfl | h
  · exact (boundary_iff_spec (Rope.text_utf8 hr)).1 (by simp [isCharBoundary])
  · exact (boundary_iff_spec (Rope.text_utf8 hr)).1 (by simp [isCharBoundary])
  · exact MergedBreaks.line_boundary_char hr h

theorem edge_le {t : List UInt8} {k : Nat} (h : Edge t k) : k ≤ t.length := by
  rcases h with rfl | rfl | h
  · omega
  · omega
  · have := (List.getElem?_eq_some_iff.1 h.2).1
    have := h.1
    omega

theorem count_lt_of_lt {t : List UInt8} {o p : Nat} (h : (t.take o).count newline < (t.take p).count newline) : o < p := by
  apply Classical.byContradiction
  intro hn
  have := count_take_le_take t newline (o := p) (p := o) (by omega)
  omega

/-- The start of the logical line of an offset. -/
theorem lineStart_spec {r : Rope} (hr : r.Balanced) {o : Nat} (h : CharBoundary r.text o) (ho : o ≤ r.text.length) :
    ∃ l s, r.lineOfOffset o = some l ∧ l = (r.text.take o).count newline ∧ r.offsetOfLine l = some s ∧ s ≤ o ∧ (s = 0 ∨ LineBoundary r.text s) ∧
      (r.text.take s).count newline = l ∧ ∀ k, s < k → k ≤ o → ¬ LineBoundary r.text k := by
  refine ⟨(r.text.take o).count newline, ?_⟩
  have hle := count_take_le_take r.text newline ho
  rw [List.take_length] at hle
  by_cases h0 : (r.text.take o).count newline = 0
  · refine ⟨0, Rope.lineOfOffset_spec hr h, rfl, by rw [h0]; exact Rope.offsetOfLine_zero, Nat.zero_le _, .inl rfl, by simp [h0], ?_⟩
    intro k k1 k2 hk
    have h1 := count_take_hit r.text newline hk.1 hk.2
    have h2 := count_take_le_take r.text newline k2
    omega
  · obtain ⟨s, h1, h2, h3, h4, h5⟩ := Rope.offsetOfLine_spec hr (by omega) hle
    have hso : s ≤ o := by
      apply Classical.byContradiction
      intro hn
      have h6 := count_take_hit r.text newline h4 h5
      have h7 := count_take_le_take r.text newline (o := o) (p := s - 1) (by omega)
      omega
    refine ⟨s, Rope.lineOfOffset_spec hr h, rfl, h1, hso, .inr ⟨h4, h5⟩, h3, ?_⟩
    intro k k1 k2 hk
    have h6 := count_take_hit r.text newline hk.1 hk.2
    have h7 := count_take_le_take r.text newline k2
    have h8 := count_take_le_take r.text newline (o := s) (p := k - 1) (by omega)
    omega

/-- The start of the next logical line, or the end. -/
theorem lineNext_spec {r : Rope} (hr : r.Balanced) {o : Nat} (ho : o ≤ r.text.length) :
    ∃ s, r.offsetOfLine ((r.text.take o).count newline + 1) = some s ∧ s ≤ r.text.length ∧ o ≤ s ∧
      (s = r.text.length ∧ (r.text.take s).count newline = (r.text.take o).count newline ∨
        LineBoundary r.text s ∧ o < s ∧ (r.text.take s).count newline = (r.text.take o).count newline + 1) := by
  have hle := count_take_le_take r.text newline ho
  rw [List.take_length] at hle
  by_cases h : (r.text.take o).count newline = r.text.count newline
  · refine ⟨r.text.length, by rw [h]; exact Rope.offsetOfLine_last hr, Nat.le_refl _, ho, .inl ⟨rfl, ?_⟩⟩
    rw [List.take_length, h]
  · obtain ⟨s, h1, h2, h3, h4, h5⟩ := Rope.offsetOfLine_spec hr (line := (r.text.take o).count newline + 1) (by omega) (by omega)
    have := count_lt_of_lt (t := r.text) (o := o) (p := s) (by omega)
    exact ⟨s, h1, h2, by omega, .inr ⟨⟨h4, h5⟩, this, h3⟩⟩

theorem pickTask_spec {r : Rope} {L : LinesState} (hi : L.Inv rule r) (hwr : L.wraps = true) (hw : L.work ≠ []) (vis : Nat) :
    ∃ t c, L.pickTask r vis = some (t, c) ∧ t.start < t.stop ∧ t.stop ≤ r.text.length ∧ (t.start = 0 ∨ LineBoundary r.text t.start) ∧
      Edge r.text t.stop ∧ (∃ u ∈ L.work, u.start ≤ t.start ∧ t.stop = u.stop) ∧ c.Inv r L.breaks ∧ c.offset = t.start ∧
      c.curLine = lineIndex r.text L.breaks.text t.start := by
  have ha := hi.agree
  obtain ⟨m, e1, i1, l1, o1⟩ := MergedBreaks.new_spec ha
  obtain ⟨m2, o, e2, u2, g1, g2⟩ := MergedBreaks.offsetOfLine_spec ha i1 (by rw [l1, o1, lineIndex_zero]) (.inl o1) vis
  have ho : CharBoundary r.text o ∧ o ≤ r.text.length := by
    by_cases h : vis ≤ lineIndex r.text L.breaks.text r.text.length
    · rcases g1 h with ⟨-, rfl⟩ | ⟨h1 | h1, h2, -⟩
      · exact ⟨edge_char ha.text (.inl rfl), Nat.zero_le _⟩
      · exact ⟨edge_char ha.text (.inr (.inr h1)), h2⟩
      · exact ⟨ha.chars _ h1, h2⟩
    · have := g2 (by omega)
      subst this
      exact ⟨edge_char ha.text (.inr (.inl rfl)), Nat.le_refl _⟩
  obtain ⟨ln, s, f1, -, f3, f4, f5, -⟩ := lineStart_spec ha.text ho.1 ho.2
  have htask : ∃ t, WrapTasks.getNext L.work s = some (some t) ∧ t.start < t.stop ∧ t.stop ≤ r.text.length ∧
      (t.start = 0 ∨ LineBoundary r.text t.start) ∧ Edge r.text t.stop ∧ (∃ u ∈ L.work, u.start ≤ t.start ∧ t.stop = u.stop) := by
    have hstart : ∀ u ∈ L.work, u.start = 0 ∨ LineBoundary r.text u.start := by
      intro u hu
      obtain ⟨u1, u2, u3, u4⟩ := hi.tasks hwr u hu
      rcases u3 with u3 | u3 | u3
      · exact .inl u3
      · omega
      · exact .inr u3
    unfold WrapTasks.getNext
    split
    · rename_i u hu
      have h1 := List.find?_some hu
      have h2 := List.mem_of_find?_eq_some hu
      simp at h1
      obtain ⟨u1, u2, u3, u4⟩ := hi.tasks hwr u h2
      refine ⟨⟨max u.start s, u.stop⟩, ?_, ?_, u2, ?_, u4, u, h2, ?_, rfl⟩
      · simp only [Interval.new]
        rw [if_pos (by omega)]; rfl
      · show max u.start s < u.stop; omega
      · show max u.start s = 0 ∨ LineBoundary r.text (max u.start s)
        rcases Nat.le_total u.start s with h | h
        · rw [Nat.max_eq_right h]; exact f5
        · rw [Nat.max_eq_left h]; exact hstart u h2
      · show u.start ≤ max u.start s; omega
    · obtain ⟨u, hu⟩ : ∃ u, L.work.getLast? = some u := by
        rw [List.getLast?_eq_some_getLast hw]; exact ⟨_, rfl⟩
      have h2 := List.mem_of_getLast? hu
      obtain ⟨u1, u2, u3, u4⟩ := hi.tasks hwr u h2
      exact ⟨u, by rw [hu], u1, u2, hstart u h2, u4, u, h2, Nat.le_refl _, rfl⟩
  obtain ⟨t, t1, t2, t3, t4, t5, t6⟩ := htask
  obtain ⟨c, c1, c2, c3, c4, c5, c6⟩ := MergedBreaks.setOffset_spec ha u2 (q := t.start) (by omega)
  have hc : c.offset = t.start := by
    apply Classical.byContradiction
    intro hne
    rcases t4 with h | h
    · omega
    · exact c6 t.start (by omega) (Nat.le_refl _) (.inl h)
  refine ⟨t, c, ?_, t2, t3, t4, t5, t6, c2, hc, by rw [c3, hc]⟩
  unfold pickTask
  simp only [e1, e2, f1, f3, t1, c1, Option.bind_eq_bind, Option.bind_some]
  rw [if_pos hc]
  rfl

/-- The flags after new ones were put in. -/
theorem breakAt_put {b fl : List Bool} {a : Nat} (h : a + fl.length ≤ b.length) {k : Nat} :
    BreakAt (b.take a ++ fl ++ b.drop (a + fl.length)) k ↔
      if a < k ∧ k ≤ a + fl.length then BreakAt fl (k - a) else BreakAt b k := by
  simp only [BreakAt]
  by_cases h0 : 0 < k
  · split
    · rename_i hk
      rw [List.append_assoc, List.getElem?_append_right (by simp; omega), List.length_take, Nat.min_eq_left (by omega),
        List.getElem?_append_left (by omega), show k - 1 - a = k - a - 1 by omega]
      grind
    · rename_i hk
      by_cases hka : k ≤ a
      · rw [List.append_assoc, List.getElem?_append_left (by simp; omega), List.getElem?_take, if_pos (by omega)]
      · rw [List.getElem?_append_right (by simp; omega), List.getElem?_drop]
        simp only [List.length_append, List.length_take]
        rw [show a + fl.length + (k - 1 - (min a b.length + fl.length)) = k - 1 by omega]
  · have : ¬ (a < k ∧ k ≤ a + fl.length) := by omega
    rw [if_neg this]
    grind

theorem cutTask_edges {t : List UInt8} {w u x : Interval} (hw : w.start < w.stop) (hs : Edge t w.start) (he : Edge t w.stop)
    (hu : u.start < u.stop ∧ u.stop ≤ t.length ∧ Edge t u.start ∧ Edge t u.stop) (hx : x ∈ WrapTasks.cutTask w u) :
    x.start < x.stop ∧ x.stop ≤ t.length ∧ Edge t x.start ∧ Edge t x.stop := by
  obtain ⟨h1, h2, h3, h4⟩ := hu
  have := edge_le hs
  have := edge_le he
  unfold WrapTasks.cutTask at hx
  split at hx
  · simp at hx; subst hx; exact ⟨h1, h2, h3, h4⟩
  · rename_i hn
    simp [Interval.isBefore, Interval.isAfter] at hn
    rw [List.mem_append] at hx
    rcases hx with hx | hx
    · split at hx
      · simp at hx; subst hx
        simp only [Interval.pre]
        rw [Nat.min_eq_left (by omega), Nat.min_eq_right (by omega)]
        exact ⟨by omega, by omega, h3, hs⟩
      · simp at hx
    · split at hx
      · simp at hx; subst hx
        simp only [Interval.suf]
        rw [Nat.max_eq_right (by omega), Nat.max_eq_left (by omega)]
        exact ⟨by omega, by omega, he, h4⟩
      · simp at hx

theorem afterWrap_edges {t : List UInt8} {w : Interval} {work : List Interval} (hw : w.start < w.stop) (hs : Edge t w.start) (he : Edge t w.stop)
    (hu : ∀ u ∈ work, u.start < u.stop ∧ u.stop ≤ t.length ∧ Edge t u.start ∧ Edge t u.stop) :
    ∀ x ∈ WrapTasks.afterWrap work w, x.start < x.stop ∧ x.stop ≤ t.length ∧ Edge t x.start ∧ Edge t x.stop := by
  intro x hx
  unfold WrapTasks.afterWrap at hx
  split at hx
  · exact hu x hx
  · rw [List.mem_flatMap] at hx
    obtain ⟨u, h1, h2⟩ := hx
    exact cutTask_edges hw hs he (hu u h1) h2

/-- What one task does. -/
structure Wrapped (rule : WrapRule) (r : Rope) (L L' : LinesState) (s : WrapSummary) (a e : Nat) : Prop where
  lt : a < e
  edge : Edge r.text a
  edge' : Edge r.text e
  start : a = 0 ∨ LineBoundary r.text a
  from_ : ∃ u ∈ L.work, u.start ≤ a ∧ e ≤ u.stop
  wraps : L'.wraps = L.wraps
  work : L'.work = WrapTasks.afterWrap L.work ⟨a, e⟩
  bal : L'.breaks.Balanced
  len : L'.breaks.text.length = r.text.length
  breaks : ∀ k, BreakAt L'.breaks.text k ↔ if a < k ∧ k ≤ e then Soft rule r.text k else BreakAt L.breaks.text k
  startLine : s.startLine = lineIndex r.text L.breaks.text a
  inval : s.invalCount = ((L.breaks.text.take e).count true - (L.breaks.text.take a).count true) +
    (1 + (r.text.take e).count newline - (r.text.take a).count newline)
  new : s.newCount = s.newSoft + (1 + (r.text.take e).count newline - (r.text.take a).count newline)
  soft : (L'.breaks.text.take e).count true = (L'.breaks.text.take a).count true + s.newSoft

theorem doWrapTask_spec (hr : rule.Ok) {r : Rope} {L : LinesState} (hi : L.Inv rule r) (hwr : L.wraps = true) (hw : L.work ≠ [])
    {vis vis' : Nat} (hv : vis ≤ vis') :
    ∃ L' s a e, L.doWrapTask rule r r.text vis vis' = some (L', s) ∧ Wrapped rule r L L' s a e := by
  have ha := hi.agree
  obtain ⟨t, c, e1, t1, t2, t3, t4, ⟨u, u1, u2, u3⟩, c1, c2, c3⟩ := pickTask_spec hi hwr hw vis
  obtain ⟨c', res, e2, i2, n2, r2⟩ := MergedBreaks.next_spec ha.len c1
  have hold : OldOk r.text.length c' res := by
    rcases r2 with ⟨rfl, -⟩ | ⟨rfl, h, -⟩
    · exact .inl rfl
    · exact .inr ⟨rfl, h⟩
  obtain ⟨bd, fl, e3, b1, b2, b3, b4, b5, b6, b7⟩ := wrapLoop_spec hr ha.len ha.text (a := t.start) (stop := t.stop)
    (batch := max maxLinesPerBatch (vis' - vis)) t4 (r.text.length + 1) (lines := 0) (bd := .new) (c := c') (old := res) (fl := [])
    (atBreak_start (by omega) t3) (by omega) BreakBuilder.text_new (by simp) flagsOk_nil i2 (fun k k1 k2 => n2.gap k (by omega) k2) hold (by omega)
  obtain ⟨nb, e4, nb1, nb2⟩ := b1.build
  have b5 := b5 (by omega)
  have b7 := b7 t1
  have hnl : nb.len = fl.length := by obtain ⟨n, hw⟩ := nb1; rw [hw.len_eq, nb2]
  have hlen := ha.len
  obtain ⟨m, e5, m1, m2⟩ := Node.edit_spec (iv := ⟨t.start, t.start + fl.length⟩) ha.breaks nb1 (cut_breaks (by show t.start ≤ _; omega)) (cut_breaks (by show t.start + fl.length ≤ _; omega))
  rw [nb2] at m1
  simp only at m1
  have hedge : Edge r.text t.start := t3.elim .inl (fun h => .inr (.inr h))
  have hc1 := count_take_le_take L.breaks.text true (o := t.start) (p := t.start + fl.length) (by omega)
  have hc2 := count_take_le_take r.text newline (o := t.start) (p := t.start + fl.length) (by omega)
  have hmeas : nb.measure breaksMetric = fl.count true := by
    obtain ⟨n, hw⟩ := nb1
    rw [hw.measure counts_breaks, nb2]
  refine ⟨{ L with breaks := m, work := WrapTasks.afterWrap L.work ⟨t.start, t.start + fl.length⟩ },
    ⟨c.curLine, ((L.breaks.text.take (t.start + fl.length)).count true - (L.breaks.text.take t.start).count true) +
        (1 + (r.text.take (t.start + fl.length)).count newline - (r.text.take t.start).count newline),
      nb.measure breaksMetric + (1 + (r.text.take (t.start + fl.length)).count newline - (r.text.take t.start).count newline),
      nb.measure breaksMetric⟩, t.start, t.start + fl.length, ?_, ?_⟩
  · unfold doWrapTask
    simp only [e1, hwr, Bool.true_eq_false, if_false, Option.bind_eq_bind, Option.bind_some, checkedSub, hv, if_true, e2, e3, e4]
    unfold putBreaks
    simp only [hnl, Breaks.count_spec ha.breaks (off := t.start) (by omega), Breaks.count_spec ha.breaks (off := t.start + fl.length) (by omega),
      Option.bind_eq_bind, Option.bind_some, checkedSub, hc1, if_true, Rope.lineOfOffset_spec ha.text (edge_char ha.text hedge),
      Rope.lineOfOffset_spec ha.text (edge_char ha.text b4), Interval.new, Nat.le_add_right]
    rw [if_pos (by omega)]
    simp only [Option.bind_some, e5]
    rw [hwr]
    rfl
  · refine ⟨b5, hedge, b4, t3, ⟨u, u1, u2, by omega⟩, rfl, rfl, m2, ?_, ?_, c3, rfl, ?_, ?_⟩
    · show m.text.length = _
      rw [m1]; simp; omega
    · intro k
      show BreakAt m.text k ↔ _
      rw [m1, breakAt_put (by omega)]
      split
      · rename_i hk
        exact b2 k hk.1 hk.2
      · exact Iff.rfl
    · rfl
    · show (m.text.take _).count true = (m.text.take _).count true + nb.measure breaksMetric
      rw [m1, hmeas]
      rw [List.take_append_of_le_length (by simp; omega), List.take_of_length_le (by simp; omega), List.count_append, List.append_assoc,
        List.take_append_of_le_length (by simp; omega), List.take_of_length_le (l := L.breaks.text.take t.start) (by simp; omega)]

theorem Wrapped.inv (hr : rule.Ok) {r : Rope} {L L' : LinesState} {s : WrapSummary} {a e : Nat} (hi : L.Inv rule r) (hwr : L.wraps = true)
    (h : Wrapped rule r L L' s a e) : L'.Inv rule r := by
  have ha := hi.agree
  refine ⟨⟨ha.text, h.bal, h.len, ?_, ?_⟩, ?_, ?_, ?_⟩
  · intro k hk hb
    rw [h.breaks] at hb
    split at hb
    · exact hb.apart hk
    · exact ha.apart k hk hb
  · intro k hb
    rw [h.breaks] at hb
    split at hb
    · exact hb.char hr (Rope.text_utf8 ha.text)
    · exact ha.chars k hb
  · intro _
    rw [h.work]
    exact afterWrap_edges (w := ⟨a, e⟩) h.lt h.edge h.edge' (hi.tasks hwr)
  · intro _ k h0 hp
    rw [h.work, C48_after_wrap] at hp
    rw [h.breaks]
    split
    · exact Iff.rfl
    · rename_i hk
      refine hi.done hwr k h0 (fun hp' => hp ⟨hp', ?_⟩)
      simp only [Interval.Has]; omega
  · intro hf
    rw [h.wraps, hwr] at hf
    cases hf

end LinesState

end Xi
