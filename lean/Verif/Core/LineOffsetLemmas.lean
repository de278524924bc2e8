import Verif.Spec.LineStarts
import Verif.Props.VisualLines
import Verif.Props.Backspace

/-!
# Lemmas about lines, columns and grapheme clusters
-/

namespace Xi

open Find

/-! ## Sorted lists of starts -/

theorem filter_le_get : ∀ {L : List Nat}, L.Pairwise (· < ·) → ∀ {n s : Nat}, L[n]? = some s → (L.filter (· ≤ s)).length = n + 1
  | [], _, n, s, h => by simp at h
  | x :: L, hp, n, s, h => by
    rw [List.pairwise_cons] at hp
    cases n with
    | zero =>
      simp at h; subst h
      have : L.filter (· ≤ x) = [] := by
        rw [List.filter_eq_nil_iff]
        intro y hy
        have := hp.1 y hy
        simp; omega
      simp [this]
    | succ n =>
      simp at h
      have hs := hp.1 s (List.mem_of_getElem? h)
      rw [List.filter_cons, if_pos (by simp; omega), List.length_cons, filter_le_get hp.2 h]

theorem filter_le_onLine : ∀ {L : List Nat}, L.Pairwise (· < ·) → ∀ {n s o : Nat}, OnLine L n s o → (L.filter (· ≤ o)).length = n + 1
  | [], _, n, s, o, h => by have := h.start; simp at this
  | x :: L, hp, n, s, o, h => by
    have hp' := hp
    rw [List.pairwise_cons] at hp
    obtain ⟨h1, h2, h3⟩ := h
    cases n with
    | zero =>
      simp at h1; subst h1
      have : L.filter (· ≤ o) = [] := by
        rw [List.filter_eq_nil_iff]
        intro y hy
        cases L with
        | nil => simp at hy
        | cons z L =>
          have hz := h3 z (by simp)
          rcases List.mem_cons.1 hy with rfl | hy
          · simp; omega
          · have := (List.pairwise_cons.1 hp.2).1 y hy
            simp; omega
      simp [this, h2]
    | succ n =>
      simp at h1
      have hs := hp.1 s (List.mem_of_getElem? h1)
      rw [List.filter_cons, if_pos (by simp; omega), List.length_cons, filter_le_onLine hp.2 ⟨h1, h2, fun e he => h3 e (by simpa using he)⟩]

/-- Every place is on a line. -/
theorem onLine_exists : ∀ {L : List Nat}, L.Pairwise (· < ·) → ∀ {o a : Nat}, L[0]? = some a → a ≤ o → ∃ n s, OnLine L n s o
  | [], _, o, a, h, _ => by simp at h
  | [x], _, o, a, h, ha => ⟨0, x, by simp, by simp at h; omega, by simp⟩
  | x :: y :: L, hp, o, a, h, ha => by
    rw [List.pairwise_cons] at hp
    by_cases c : y ≤ o
    · obtain ⟨n, s, h1, h2, h3⟩ := onLine_exists hp.2 (o := o) (a := y) (by simp) c
      exact ⟨n + 1, s, by simpa using h1, h2, fun e he => h3 e (by simpa using he)⟩
    · exact ⟨0, x, by simp, by simp at h; omega, fun e he => by simp at he; omega⟩

theorem onLine_unique {L : List Nat} (hp : L.Pairwise (· < ·)) {n s o n' s' : Nat} (h : OnLine L n s o) (h' : OnLine L n' s' o) : n = n' ∧ s = s' := by
  have h1 := filter_le_onLine hp h
  have h2 := filter_le_onLine hp h'
  have : n = n' := by omega
  subst this
  have h3 := h.start
  rw [h'.start] at h3
  exact ⟨rfl, by injection h3 with h3; exact h3.symm⟩

theorem get_lt {L : List Nat} (hp : L.Pairwise (· < ·)) {i j a b : Nat} (hij : i < j) (ha : L[i]? = some a) (hb : L[j]? = some b) : a < b := by
  obtain ⟨h1, rfl⟩ := List.getElem?_eq_some_iff.1 ha
  obtain ⟨h2, rfl⟩ := List.getElem?_eq_some_iff.1 hb
  exact List.pairwise_iff_getElem.1 hp i j h1 h2 hij

/-! ## The two kinds of lines -/

theorem logicalStarts_eq (t : List UInt8) : logicalStarts t = visualStarts t [] := by
  simp [logicalStarts, visualStarts]

theorem mem_visualStarts {t : List UInt8} {b : List Bool} {k : Nat} : k ∈ visualStarts t b ↔ k ≤ t.length ∧ (k = 0 ∨ Starts t b k) := by
  simp only [visualStarts, Starts, LineBoundary, BreakAt, List.mem_filter, List.mem_range, decide_eq_true_eq]
  constructor
  · rintro ⟨h1, h2⟩; exact ⟨by omega, h2⟩
  · rintro ⟨h1, h2⟩; exact ⟨by omega, h2⟩

theorem visualStarts_sorted (t : List UInt8) (b : List Bool) : (visualStarts t b).Pairwise (· < ·) :=
  List.Pairwise.filter _ List.pairwise_lt_range

theorem visualStarts_first (t : List UInt8) (b : List Bool) : (visualStarts t b)[0]? = some 0 := by
  simp only [visualStarts, List.range_succ_eq_map]
  rw [List.filter_cons_of_pos (by simp)]
  rfl

theorem filter_range_le (p : Nat → Bool) {N o : Nat} (h : o < N) : ((List.range N).filter p).filter (· ≤ o) = (List.range (o + 1)).filter p := by
  obtain ⟨d, rfl⟩ : ∃ d, N = (o + 1) + d := ⟨N - (o + 1), by omega⟩
  rw [List.range_add, List.filter_append, List.filter_append]
  have h1 : ((List.map (fun x => o + 1 + x) (List.range d)).filter p).filter (· ≤ o) = [] := by
    rw [List.filter_eq_nil_iff]
    intro y hy
    obtain ⟨hy, -⟩ := List.mem_filter.1 hy
    obtain ⟨x, -, rfl⟩ := List.mem_map.1 hy
    simp; omega
  rw [h1, List.append_nil, List.filter_eq_self]
  intro y hy
  have := List.mem_range.1 (List.mem_filter.1 hy).1
  simp; omega

theorem visualStarts_count {t : List UInt8} {b : List Bool} (ha : ∀ k, LineBoundary t k → ¬ BreakAt b k) {o : Nat} (ho : o ≤ t.length) :
    ((visualStarts t b).filter (· ≤ o)).length = lineIndex t b o + 1 := by
  rw [visualStarts, filter_range_le _ (by omega)]
  clear ho
  induction o with
  | zero => simp [lineIndex_zero]
  | succ o ih =>
    rw [List.range_succ, List.filter_append, List.length_append, ih]
    by_cases c : Starts t b (o + 1)
    · rw [lineIndex_hit ha (Nat.lt_succ_self o) c (fun k k1 k2 => by omega)]
      rw [List.filter_cons_of_pos]
      · simp
      · simp only [decide_eq_true_eq]; exact .inr c
    · rw [lineIndex_gap (o := o) (p := o + 1) (by omega) (fun k k1 k2 => by rw [show k = o + 1 by omega]; exact c)]
      rw [List.filter_cons_of_neg]
      · simp
      · simp only [decide_eq_true_eq, Nat.succ_ne_zero, false_or]; exact c

theorem visualStarts_get {t : List UInt8} {b : List Bool} (ha : ∀ k, LineBoundary t k → ¬ BreakAt b k) {n s : Nat} (h : (visualStarts t b)[n]? = some s) :
    LineAt t b n s := by
  have hm := mem_visualStarts.1 (List.mem_of_getElem? h)
  have h1 := filter_le_get (visualStarts_sorted t b) h
  rw [visualStarts_count ha hm.1] at h1
  rcases hm.2 with rfl | hs
  · rw [lineIndex_zero] at h1
    exact .inl ⟨by omega, rfl⟩
  · exact .inr ⟨hs, hm.1, by omega⟩

theorem visualStarts_length {t : List UInt8} {b : List Bool} (ha : ∀ k, LineBoundary t k → ¬ BreakAt b k) :
    (visualStarts t b).length = lineIndex t b t.length + 1 := by
  rw [← visualStarts_count ha (Nat.le_refl _), List.filter_eq_self.2]
  intro k hk
  simpa using (mem_visualStarts.1 hk).1

theorem boundary_le {t : List UInt8} {o : Nat} (h : CharBoundary t o) : o ≤ t.length := by
  obtain ⟨a, b, h, rfl⟩ := h
  rw [h, List.length_append]; omega

theorem rope_boundary_zero {r : Rope} (hr : r.Balanced) : CharBoundary r.text 0 := by
  obtain ⟨cs, hcs⟩ := Rope.text_utf8 hr
  exact ⟨[], cs, by simpa using hcs, rfl⟩

theorem rope_boundary_length {r : Rope} (hr : r.Balanced) : CharBoundary r.text r.text.length := by
  obtain ⟨cs, hcs⟩ := Rope.text_utf8 hr
  exact ⟨cs, [], by simpa using hcs, by rw [← hcs]⟩

theorem line_boundary_char {r : Rope} (hr : r.Balanced) {s : Nat} (h : LineBoundary r.text s) : CharBoundary r.text s := by
  have hu := Rope.text_utf8 hr
  obtain ⟨h1, h2⟩ := h
  have := newline_boundary hu h2
  rw [show s - 1 + 1 = s by omega] at this
  exact (boundary_iff_spec hu).1 this

theorem visual_isLines {r : Rope} {b : Breaks} (wraps : Bool) (ha : Agree r b) (hw : wraps = false → ∀ k, ¬ BreakAt b.text k) :
    IsLines r (.visualLines wraps b) (visualStarts r.text b.text) ∧ Clamps r (.visualLines wraps b) (visualStarts r.text b.text) := by
  have hlen := visualStarts_length ha.apart
  have hcl : Clamps r (.visualLines wraps b) (visualStarts r.text b.text) := by
    intro n hn
    obtain ⟨o, h1, -, h2⟩ := C53_offset_of_line wraps ha hw n
    show offsetOfVisualLine wraps b r n = _
    rw [h1, h2 (by omega)]
  refine ⟨⟨visualStarts_first _ _, visualStarts_sorted _ _, ?_, ?_, ?_, hcl _ (Nat.le_refl _)⟩, hcl⟩
  · intro s hs
    obtain ⟨n, hn⟩ := List.getElem?_of_mem hs
    exact (lineAt_char ha (visualStarts_get ha.apart hn)).1
  · intro o ho
    show visualLineOfOffset wraps b r o = _
    rw [C53_line_of_offset wraps ha hw o ho, visualStarts_count ha.apart (boundary_le ho)]
    rfl
  · intro n s hn
    obtain ⟨o, h1, h2, -⟩ := C53_offset_of_line wraps ha hw n
    have h3 := visualStarts_get ha.apart hn
    have h4 : n < (visualStarts r.text b.text).length := (List.getElem?_eq_some_iff.1 hn).1
    show offsetOfVisualLine wraps b r n = _
    rw [h1, C53_line_unique ha (h2 (by omega)) h3]

theorem lineIndex_nil (t : List UInt8) (o : Nat) : lineIndex t [] o = (t.take o).count newline := by simp [lineIndex]

theorem no_breaks (k : Nat) : ¬ BreakAt [] k := by simp [BreakAt]

theorem logical_isLines {r : Rope} (hr : r.Balanced) : IsLines r .logicalLines (logicalStarts r.text) := by
  rw [logicalStarts_eq]
  have ha : ∀ k, LineBoundary r.text k → ¬ BreakAt [] k := fun k _ => no_breaks k
  have hlen := visualStarts_length ha
  rw [lineIndex_nil, List.take_length] at hlen
  refine ⟨visualStarts_first _ _, visualStarts_sorted _ _, ?_, ?_, ?_, ?_⟩
  · intro s hs
    rcases (mem_visualStarts.1 hs).2 with rfl | h | h
    · exact rope_boundary_zero hr
    · exact line_boundary_char hr h
    · exact absurd h (no_breaks _)
  · intro o ho
    show r.lineOfOffset o = _
    rw [Rope.lineOfOffset_spec hr ho, visualStarts_count ha (boundary_le ho), lineIndex_nil]
    rfl
  · intro n s hn
    show r.offsetOfLine n = _
    have h4 : n < (visualStarts r.text []).length := (List.getElem?_eq_some_iff.1 hn).1
    rcases visualStarts_get ha hn with ⟨rfl, rfl⟩ | ⟨h1, h2, h3⟩
    · exact Rope.offsetOfLine_zero
    · rw [lineIndex_nil] at h3
      have h1 : LineBoundary r.text s := h1.resolve_right (no_breaks _)
      have hpos := count_take_hit r.text newline h1.1 h1.2
      obtain ⟨o, e1, e2, e3, e4, e5⟩ := Rope.offsetOfLine_spec hr (line := n) (by omega) (by omega)
      rw [e1]
      congr 1
      have k1 := count_take_hit r.text newline e4 e5
      rcases Nat.lt_trichotomy o s with c | c | c
      · have := count_take_le_take r.text newline (o := o) (p := s - 1) (by omega); omega
      · exact c
      · have := count_take_le_take r.text newline (o := s) (p := o - 1) (by omega); omega
  · show r.offsetOfLine _ = _
    rw [hlen]; exact Rope.offsetOfLine_last hr

/-! ## Grapheme clusters -/

theorem Graphemes.prev_spec (g : Graphemes) {r : Rope} (hr : r.Balanced) {o : Nat} (h : o ≤ r.text.length) :
    ∃ p, g.prevOffset r o = some p ∧ IsPrev (fun k => g.boundary r.text k = true) o p := by
  have hl : r.len = r.text.length := Rope.len_eq hr
  refine ⟨_, by rw [Graphemes.prevOffset, if_pos (by omega)], ?_⟩
  cases e : (List.range o).reverse.find? (g.boundary r.text) with
  | none =>
    rw [List.find?_eq_none] at e
    intro k hk hb
    exact e k (by simp [hk]) hb
  | some b =>
    obtain ⟨hb, as, bs, e1, e2⟩ := List.find?_eq_some_iff_append.1 e
    have e1' : List.range o = bs.reverse ++ b :: as.reverse := by
      rw [← List.reverse_reverse (List.range o), e1]; simp
    have hs : (bs.reverse ++ b :: as.reverse).Pairwise (· < ·) := by rw [← e1']; exact List.pairwise_lt_range
    refine ⟨?_, hb, ?_⟩
    · have : b ∈ List.range o := by rw [e1']; simp
      exact List.mem_range.1 this
    · intro k k1 k2 hk
      have hm : k ∈ bs.reverse ++ b :: as.reverse := by rw [← e1']; exact List.mem_range.2 k2
      rw [List.pairwise_append] at hs
      rcases List.mem_append.1 hm with hm | hm
      · have := hs.2.2 k hm b (by simp); omega
      · rcases List.mem_cons.1 hm with rfl | hm
        · omega
        · have := e2 k (by simpa using hm)
          simp [hk] at this

theorem Graphemes.next_spec (g : Graphemes) {r : Rope} (hr : r.Balanced) {o : Nat} (h : o ≤ r.text.length) :
    ∃ p, g.nextOffset r o = some p ∧ IsNext (fun k => g.boundary r.text k = true) r.text.length o p := by
  have hl : r.len = r.text.length := Rope.len_eq hr
  refine ⟨_, by rw [Graphemes.nextOffset, if_pos (by omega)], ?_⟩
  rw [hl]
  have hmem : ∀ k, k ∈ (List.range (r.text.length + 1)).drop (o + 1) ↔ o < k ∧ k ≤ r.text.length := by
    intro k
    rw [List.mem_drop_iff_getElem]
    simp only [List.length_range, List.getElem_range]
    constructor
    · rintro ⟨j, h1, rfl⟩; omega
    · rintro ⟨h1, h2⟩; exact ⟨k - (o + 1), by omega, by omega⟩
  cases e : ((List.range (r.text.length + 1)).drop (o + 1)).find? (g.boundary r.text) with
  | none =>
    rw [List.find?_eq_none] at e
    intro k k1 k2 hb
    exact e k ((hmem k).2 ⟨k1, k2⟩) hb
  | some b =>
    obtain ⟨hb, as, bs, e1, e2⟩ := List.find?_eq_some_iff_append.1 e
    have hs : (as ++ b :: bs).Pairwise (· < ·) := by rw [← e1]; exact List.Pairwise.drop List.pairwise_lt_range
    have hb' := (hmem b).1 (by rw [e1]; simp)
    refine ⟨hb'.1, hb'.2, hb, ?_⟩
    intro k k1 k2 hk
    have hm : k ∈ as ++ b :: bs := by rw [← e1]; exact (hmem k).2 ⟨k1, by omega⟩
    rw [List.pairwise_append] at hs
    rcases List.mem_append.1 hm with hm | hm
    · have := e2 k hm
      simp [hk] at this
    · rcases List.mem_cons.1 hm with rfl | hm
      · omega
      · have := (List.pairwise_cons.1 hs.2.1).1 k hm; omega

theorem isPrev_unique {B : Nat → Prop} {p a b : Nat} (ha : IsPrev B p (some a)) (hb : IsPrev B p (some b)) : a = b := by
  obtain ⟨a1, a2, a3⟩ := ha
  obtain ⟨b1, b2, b3⟩ := hb
  rcases Nat.lt_trichotomy a b with c | c | c
  · exact absurd b2 (a3 b c b1)
  · exact c
  · exact absurd a2 (b3 a c a1)

theorem isNext_unique {B : Nat → Prop} {n p a b : Nat} (ha : IsNext B n p (some a)) (hb : IsNext B n p (some b)) : a = b := by
  obtain ⟨a1, a2, a3, a4⟩ := ha
  obtain ⟨b1, b2, b3, b4⟩ := hb
  rcases Nat.lt_trichotomy a b with c | c | c
  · exact absurd a3 (b4 a a1 c)
  · exact c
  · exact absurd b3 (a4 b b1 c)

namespace Graphemes

variable {g : Graphemes} {r : Rope}

theorem prev_pos (hg : g.Ok) (hr : r.Balanced) {o : Nat} (h : o ≤ r.text.length) (h0 : 0 < o) :
    ∃ p, g.prevOffset r o = some (some p) ∧ IsPrev (fun k => g.boundary r.text k = true) o (some p) := by
  obtain ⟨p, h1, h2⟩ := g.prev_spec hr h
  cases p with
  | none => exact absurd (hg.first _ (Rope.text_utf8 hr)) (h2 0 h0)
  | some p => exact ⟨p, h1, h2⟩

theorem prev_zero (hr : r.Balanced) : g.prevOffset r 0 = some none := by
  obtain ⟨p, h1, h2⟩ := g.prev_spec hr (Nat.zero_le _)
  cases p with
  | none => exact h1
  | some p => exact absurd h2.1 (by omega)

theorem next_lt (hg : g.Ok) (hr : r.Balanced) {o : Nat} (h : o < r.text.length) :
    ∃ p, g.nextOffset r o = some (some p) ∧ IsNext (fun k => g.boundary r.text k = true) r.text.length o (some p) := by
  obtain ⟨p, h1, h2⟩ := g.next_spec hr (Nat.le_of_lt h)
  cases p with
  | none => exact absurd (hg.last _ (Rope.text_utf8 hr)) (h2 _ h (Nat.le_refl _))
  | some p => exact ⟨p, h1, h2⟩

theorem next_end (hr : r.Balanced) : g.nextOffset r r.text.length = some none := by
  obtain ⟨p, h1, h2⟩ := g.next_spec hr (Nat.le_refl _)
  cases p with
  | none => exact h1
  | some p => obtain ⟨a, b, -⟩ := h2; omega

end Graphemes

namespace IsLines

variable {g : Graphemes} {r : Rope} {lo : LineOffset} {starts : List Nat}

theorem onLine (hl : IsLines r lo starts) (o : Nat) : ∃ n s, OnLine starts n s o := onLine_exists hl.sorted hl.first (Nat.zero_le o)

theorem lineOf (hl : IsLines r lo starts) {n s o : Nat} (ho : CharBoundary r.text o) (h : OnLine starts n s o) : lo.lineOfOffset r o = some n := by
  rw [hl.line o ho, filter_le_onLine hl.sorted h]; rfl

theorem lineCol (hl : IsLines r lo starts) {n s o : Nat} (ho : CharBoundary r.text o) (h : OnLine starts n s o) :
    lo.offsetToLineCol r o = some (n, o - s) := by
  simp [LineOffset.offsetToLineCol, hl.lineOf ho h, hl.offset n s h.start, h.le]

theorem start_le (hl : IsLines r lo starts) {n s : Nat} (h : starts[n]? = some s) : s ≤ r.text.length :=
  boundary_le (hl.chars s (List.mem_of_getElem? h))

/-- The line of the end of the text is the last one. -/
theorem lastLine (hl : IsLines r lo starts) (hr : r.Balanced) : lo.lineOfOffset r r.text.length = some (starts.length - 1) := by
  rw [hl.line _ (rope_boundary_length hr), List.filter_eq_self.2]
  intro k hk
  simpa using boundary_le (hl.chars k hk)

theorem length_pos (hl : IsLines r lo starts) : 0 < starts.length := (List.getElem?_eq_some_iff.1 hl.first).1

theorem nextStart (hl : IsLines r lo starts) {n : Nat} (hn : n < starts.length) : lo.offsetOfLine r (n + 1) = some ((starts[n + 1]?).getD r.text.length) := by
  cases e : starts[n + 1]? with
  | some x => exact hl.offset _ _ e
  | none =>
    have := List.getElem?_eq_none_iff.1 e
    rw [show n + 1 = starts.length by omega]
    exact hl.past

/-- `line_col_to_offset` finds the place of a column on a line. -/
theorem lineColTo (hl : IsLines r lo starts) (hr : r.Balanced) (hg : g.Ok) {n : Nat} (hn : n < starts.length) (col : Nat) :
    ∃ p, lo.lineColToOffset g r n col = some p ∧ PlaceAt g r.text starts n col p := by
  have hlen : r.len = r.text.length := Rope.len_eq hr
  obtain ⟨s, hs⟩ : ∃ s, starts[n]? = some s := ⟨_, List.getElem?_eq_getElem hn⟩
  have hsl := hl.start_le hs
  have hu := Rope.text_utf8 hr
  have hcl : ∀ o, (∀ e, starts[n + 1]? = some e → e ≤ o → ∃ p, lo.clampToLine g r n o = some p ∧
      IsPrev (fun k => g.boundary r.text k = true) e (some p)) ∧ ((∀ e, starts[n + 1]? = some e → o < e) → o < r.text.length ∨ starts[n + 1]? ≠ none →
      lo.clampToLine g r n o = some o) := by
    intro o
    constructor
    · intro e he hle
      have he0 : 0 < e := by have := get_lt hl.sorted (Nat.lt_succ_self n) hs he; omega
      obtain ⟨p, h1, h2⟩ := Graphemes.prev_pos hg hr (hl.start_le he) he0
      refine ⟨p, ?_, h2⟩
      simp [LineOffset.clampToLine, hl.nextStart hn, he, hle, h1]
    · intro h1 h2
      simp only [LineOffset.clampToLine, hl.nextStart hn, Option.bind_eq_bind, Option.bind_some]
      rw [if_neg]
      · rfl
      · cases e : starts[n + 1]? with
        | some x => have := h1 x e; simp; omega
        | none => simp [e] at h2 ⊢; omega
  simp only [LineOffset.lineColToOffset, hl.offset n s hs, Option.bind_eq_bind, Option.bind_some, hlen, hl.lastLine hr]
  by_cases c : r.text.length ≤ s + col
  · rw [if_pos c]
    cases e : starts[n + 1]? with
    | none =>
      have := List.getElem?_eq_none_iff.1 e
      rw [if_pos (by omega)]
      refine ⟨_, rfl, s, hs, ?_⟩
      have : lineLimit starts r.text.length n = r.text.length + 1 := by simp [lineLimit, e]
      rw [this, Nat.min_eq_right (by omega)]
      exact ⟨by omega, hg.last _ hu, fun k k1 k2 => by omega⟩
    | some x =>
      have := (List.getElem?_eq_some_iff.1 e).1
      rw [if_neg (by omega)]
      obtain ⟨p, h1, h2⟩ := (hcl r.text.length).1 x e (hl.start_le e)
      refine ⟨p, h1, s, hs, ?_⟩
      have hx : lineLimit starts r.text.length n = x := by simp [lineLimit, e]
      have := hl.start_le e
      rw [hx, Nat.min_eq_right (by omega)]
      exact h2
  · rw [if_neg c]
    obtain ⟨q, h1, h2⟩ := Graphemes.prev_pos hg hr (o := s + col + 1) (by omega) (by omega)
    simp only [h1, Option.bind_some]
    by_cases d : ∀ e, starts[n + 1]? = some e → q < e
    · rw [(hcl q).2 d (.inl (by have := h2.1; omega))]
      refine ⟨q, rfl, s, hs, ?_⟩
      obtain ⟨a1, a2, a3⟩ := h2
      refine ⟨?_, a2, fun k k1 k2 => a3 k k1 (by omega)⟩
      cases e : starts[n + 1]? with
      | none => simp only [lineLimit, e, Option.getD_none]; omega
      | some x => have := d x e; simp only [lineLimit, e, Option.getD_some]; omega
    · obtain ⟨x, e, d⟩ : ∃ e, starts[n + 1]? = some e ∧ ¬ q < e := by
        apply Classical.byContradiction
        intro hh
        exact d (fun e he => Classical.byContradiction fun h3 => hh ⟨e, he, h3⟩)
      obtain ⟨p, g1, g2⟩ := (hcl q).1 x e (by omega)
      refine ⟨p, g1, s, hs, ?_⟩
      have hx : lineLimit starts r.text.length n = x := by simp [lineLimit, e]
      have := h2.1
      rw [hx, Nat.min_eq_right (by omega)]
      exact g2

end IsLines

end Xi
