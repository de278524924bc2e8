import Verif.Spec.Spans
import Verif.Rope.TreeBuild
import Verif.Rope.CursorLemmas

/-!
# Lemmas on spans
-/

namespace Xi

variable {T O : Type}

theorem cellAt_nil (p : Nat) : cellAt ([] : List (Span T)) p = none := rfl

theorem cellAt_cons (s : Span T) (l : List (Span T)) (p : Nat) :
    cellAt (s :: l) p = if s.iv.start ≤ p ∧ p < s.iv.stop then some s.data else cellAt l p := by
  simp only [cellAt, List.find?_cons]
  by_cases h : s.iv.start ≤ p ∧ p < s.iv.stop <;> simp [h]

theorem cellAt_append (a b : List (Span T)) (p : Nat) : cellAt (a ++ b) p = (cellAt a p).or (cellAt b p) := by
  induction a with
  | nil => simp [cellAt_nil]
  | cons s a ih => rw [List.cons_append, cellAt_cons, cellAt_cons]; split <;> simp [ih]

namespace SpansIn

theorem mono {lo hi lo' hi' : Nat} {l : List (Span T)} (h : SpansIn lo hi l) (h1 : lo' ≤ lo) (h2 : hi ≤ hi') : SpansIn lo' hi' l := by
  induction l generalizing lo lo' with
  | nil => trivial
  | cons s l ih => exact ⟨by have := h.1; omega, h.2.1, by have := h.2.2.1; omega, ih h.2.2.2 (Nat.le_refl _)⟩

theorem cell_low {lo hi p : Nat} {l : List (Span T)} (h : SpansIn lo hi l) (hp : p < lo) : cellAt l p = none := by
  induction l generalizing lo with
  | nil => rfl
  | cons s l ih =>
    obtain ⟨h1, h2, h3, h4⟩ := h
    rw [cellAt_cons, if_neg (by omega)]
    exact ih h4 (by omega)

theorem cell_high {lo hi p : Nat} {l : List (Span T)} (h : SpansIn lo hi l) (hp : hi ≤ p) : cellAt l p = none := by
  induction l generalizing lo with
  | nil => rfl
  | cons s l ih =>
    obtain ⟨h1, h2, h3, h4⟩ := h
    rw [cellAt_cons, if_neg (by omega)]
    exact ih h4

theorem append {lo mid hi : Nat} {a b : List (Span T)} (h1 : SpansIn lo mid a) (h2 : SpansIn mid hi b) (hl : lo ≤ mid) (hm : mid ≤ hi) :
    SpansIn lo hi (a ++ b) := by
  induction a generalizing lo with
  | nil => exact h2.mono hl (Nat.le_refl _)
  | cons s a ih =>
    obtain ⟨a1, a2, a3, a4⟩ := h1
    exact ⟨a1, a2, by omega, ih a4 (by omega)⟩

theorem left {lo hi : Nat} {a b : List (Span T)} (h : SpansIn lo hi (a ++ b)) : SpansIn lo hi a := by
  induction a generalizing lo with
  | nil => trivial
  | cons s a ih => exact ⟨h.1, h.2.1, h.2.2.1, ih h.2.2.2⟩

theorem right {lo hi : Nat} {a b : List (Span T)} (h : SpansIn lo hi (a ++ b)) : SpansIn lo hi b := by
  induction a generalizing lo with
  | nil => exact h
  | cons s a ih => exact (ih h.2.2.2).mono (by have := h.1; have := h.2.1; omega) (Nat.le_refl _)

/-- What is before a span. -/
theorem before {lo hi : Nat} {a b : List (Span T)} {s : Span T} (h : SpansIn lo hi (a ++ s :: b)) : SpansIn lo s.iv.start a ∧ lo ≤ s.iv.start := by
  induction a generalizing lo with
  | nil => exact ⟨trivial, h.1⟩
  | cons x a ih =>
    obtain ⟨h1, h2, h3, h4⟩ := h
    obtain ⟨i1, i2⟩ := ih h4
    exact ⟨⟨h1, h2, i2, i1⟩, by omega⟩

/-- The span and what comes after. -/
theorem fromStart {lo hi : Nat} {a b : List (Span T)} {s : Span T} (h : SpansIn lo hi (a ++ s :: b)) : SpansIn s.iv.start hi (s :: b) := by
  have := h.right
  exact ⟨Nat.le_refl _, this.2⟩

theorem length_le {lo hi : Nat} {l : List (Span T)} (h : SpansIn lo hi l) (hl : lo ≤ hi) : lo + l.length ≤ hi := by
  induction l generalizing lo with
  | nil => simpa
  | cons s l ih =>
    obtain ⟨h1, h2, h3, h4⟩ := h
    have := ih h4 h3
    simp; omega

theorem bounds {lo hi : Nat} {l : List (Span T)} (h : SpansIn lo hi l) : ∀ s ∈ l, lo ≤ s.iv.start ∧ s.iv.start < s.iv.stop ∧ s.iv.stop ≤ hi := by
  induction l generalizing lo with
  | nil => simp
  | cons x l ih =>
    obtain ⟨h1, h2, h3, h4⟩ := h
    intro s hs
    rcases List.mem_cons.1 hs with rfl | hs
    · exact ⟨h1, h2, h3⟩
    · have := ih h4 s hs; omega

end SpansIn

/-- All spans moved up. -/
def shiftUp (k : Nat) (l : List (Span T)) : List (Span T) := l.map (fun s => ⟨s.iv.translate k, s.data⟩)

/-- All spans moved down. -/
def shiftDown (k : Nat) (l : List (Span T)) : List (Span T) := l.map (fun s => ⟨⟨s.iv.start - k, s.iv.stop - k⟩, s.data⟩)

theorem shiftUp_in {lo hi : Nat} (k : Nat) {l : List (Span T)} (h : SpansIn lo hi l) : SpansIn (lo + k) (hi + k) (shiftUp k l) := by
  induction l generalizing lo with
  | nil => trivial
  | cons s l ih =>
    obtain ⟨h1, h2, h3, h4⟩ := h
    simp only [shiftUp, List.map_cons, SpansIn, Interval.translate]
    exact ⟨by omega, by omega, by omega, ih h4⟩

theorem shiftDown_in {lo hi k : Nat} {l : List (Span T)} (h : SpansIn lo hi l) (hk : k ≤ lo) : SpansIn (lo - k) (hi - k) (shiftDown k l) := by
  induction l generalizing lo with
  | nil => trivial
  | cons s l ih =>
    obtain ⟨h1, h2, h3, h4⟩ := h
    simp only [shiftDown, List.map_cons, SpansIn]
    exact ⟨by omega, by omega, by omega, ih h4 (by omega)⟩

theorem shiftUp_cell (k : Nat) (l : List (Span T)) (p : Nat) : cellAt (shiftUp k l) p = if k ≤ p then cellAt l (p - k) else none := by
  induction l with
  | nil => simp [shiftUp, cellAt_nil]
  | cons s l ih =>
    simp only [shiftUp, List.map_cons] at ih ⊢
    rw [cellAt_cons, cellAt_cons, ih]
    show (if s.iv.start + k ≤ p ∧ p < s.iv.stop + k then _ else _) = _
    by_cases hk : k ≤ p
    · rw [if_pos hk, if_pos hk]
      by_cases hc : s.iv.start + k ≤ p ∧ p < s.iv.stop + k
      · rw [if_pos hc, if_pos (by omega)]
      · rw [if_neg hc, if_neg (by omega)]
    · rw [if_neg hk, if_neg hk, if_neg (by omega)]

theorem shiftDown_cell {lo hi k : Nat} {l : List (Span T)} (h : SpansIn lo hi l) (hk : k ≤ lo) (p : Nat) :
    cellAt (shiftDown k l) p = cellAt l (p + k) := by
  induction l generalizing lo with
  | nil => simp [shiftDown, cellAt_nil]
  | cons s l ih =>
    obtain ⟨h1, h2, h3, h4⟩ := h
    have ih := ih h4 (by omega)
    simp only [shiftDown, List.map_cons] at ih ⊢
    rw [cellAt_cons, cellAt_cons, ih]
    simp only
    repeat' split
    all_goals first | rfl | (exfalso; omega)

theorem shiftBack_eq {lo hi k : Nat} {l : List (Span T)} (h : SpansIn lo hi l) (hk : k ≤ lo) :
    SpansLeaf.shiftBack k l = some (shiftDown k l) := by
  induction l generalizing lo with
  | nil => rfl
  | cons s l ih =>
    obtain ⟨h1, h2, h3, h4⟩ := h
    have e := ih h4 (by omega)
    simp only [SpansLeaf.shiftBack, Interval.translateNeg]
    rw [if_pos (by omega), e]
    rfl

/-- The part of the spans between two offsets, moved to `off`. -/
def clip (off a b : Nat) (l : List (Span T)) : List (Span T) :=
  l.filterMap (fun s => if max s.iv.start a < min s.iv.stop b then
    some ⟨⟨max s.iv.start a - a + off, min s.iv.stop b - a + off⟩, s.data⟩ else none)

theorem clip_cons (off a b : Nat) (s : Span T) (l : List (Span T)) :
    clip off a b (s :: l) = (if max s.iv.start a < min s.iv.stop b then
      [⟨⟨max s.iv.start a - a + off, min s.iv.stop b - a + off⟩, s.data⟩] else []) ++ clip off a b l := by
  simp only [clip, List.filterMap_cons]
  by_cases h : max s.iv.start a < min s.iv.stop b <;> simp [h]

theorem clipStep_eq (off : Nat) (iv : Interval) (s : Span T) :
    SpansLeaf.clipStep off iv s = some (if max s.iv.start iv.start < min s.iv.stop iv.stop then
      some ⟨⟨max s.iv.start iv.start - iv.start + off, min s.iv.stop iv.stop - iv.start + off⟩, s.data⟩ else none) := by
  have e : (s.iv.intersect iv).translateNeg iv.start =
      some ⟨max s.iv.start iv.start - iv.start, max (max s.iv.start iv.start) (min s.iv.stop iv.stop) - iv.start⟩ :=
    if_pos ⟨Nat.le_max_right _ _, Nat.le_trans (Nat.le_max_right _ _) (Nat.le_max_left _ _)⟩
  simp only [SpansLeaf.clipStep, e, Option.bind_eq_bind, Option.bind_some, Option.pure_def]
  by_cases h : max s.iv.start iv.start < min s.iv.stop iv.stop
  · have hE : (Interval.translate ⟨max s.iv.start iv.start - iv.start, max (max s.iv.start iv.start) (min s.iv.stop iv.stop) - iv.start⟩ off).isEmpty = false := by
      refine decide_eq_false ?_
      show ¬ (max (max s.iv.start iv.start) (min s.iv.stop iv.stop) - iv.start + off ≤ max s.iv.start iv.start - iv.start + off)
      omega
    rw [if_pos h, hE, show max (max s.iv.start iv.start) (min s.iv.stop iv.stop) = min s.iv.stop iv.stop by omega]
    rfl
  · have hE : (Interval.translate ⟨max s.iv.start iv.start - iv.start, max (max s.iv.start iv.start) (min s.iv.stop iv.stop) - iv.start⟩ off).isEmpty = true := by
      refine decide_eq_true ?_
      show max (max s.iv.start iv.start) (min s.iv.stop iv.stop) - iv.start + off ≤ max s.iv.start iv.start - iv.start + off
      omega
    rw [if_neg h, hE]
    rfl

theorem clipAll_eq (off : Nat) (iv : Interval) (l : List (Span T)) :
    SpansLeaf.clipAll off iv l = some (clip off iv.start iv.stop l) := by
  induction l with
  | nil => rfl
  | cons s l ih =>
    rw [clip_cons, SpansLeaf.clipAll, ih, clipStep_eq]
    by_cases h : max s.iv.start iv.start < min s.iv.stop iv.stop <;> simp [h]

theorem clip_in {lo hi off a b : Nat} {l : List (Span T)} (h : SpansIn lo hi l) (hab : a ≤ b) :
    SpansIn (max lo a - a + off) (b - a + off) (clip off a b l) := by
  induction l generalizing lo with
  | nil => trivial
  | cons s l ih =>
    obtain ⟨h1, h2, h3, h4⟩ := h
    rw [clip_cons]
    split
    · refine ⟨?_, ?_, ?_, ?_⟩
      · show _ ≤ max s.iv.start a - a + off; omega
      · show max s.iv.start a - a + off < min s.iv.stop b - a + off; omega
      · show min s.iv.stop b - a + off ≤ _; omega
      · exact (ih h4).mono (by show min s.iv.stop b - a + off ≤ _; omega) (Nat.le_refl _)
    · exact (ih h4).mono (by omega) (Nat.le_refl _)

theorem clip_cell (off a b : Nat) (l : List (Span T)) (hab : a ≤ b) (p : Nat) :
    cellAt (clip off a b l) p = if off ≤ p ∧ p < b - a + off then cellAt l (p - off + a) else none := by
  induction l with
  | nil => simp [clip, cellAt_nil]
  | cons s l ih =>
    rw [clip_cons, cellAt_append, cellAt_cons, ih]
    split
    · rw [cellAt_cons, cellAt_nil]
      simp only
      repeat' split
      all_goals first | rfl | (exfalso; omega)
    · rw [cellAt_nil]
      repeat' split
      all_goals first | rfl | (exfalso; omega)

theorem clip_length (off a b : Nat) (l : List (Span T)) : (clip off a b l).length ≤ l.length := List.length_filterMap_le _ _

theorem clip_whole {lo hi off : Nat} {l : List (Span T)} (h : SpansIn lo hi l) : clip off 0 hi l = shiftUp off l := by
  induction l generalizing lo with
  | nil => rfl
  | cons s l ih =>
    obtain ⟨h1, h2, h3, h4⟩ := h
    rw [clip_cons, ih h4, if_pos (by omega)]
    simp only [shiftUp, List.map_cons, List.singleton_append, List.cons.injEq, and_true, Interval.translate]
    congr 2 <;> omega

theorem paint_length (n : Nat) (l : List (Span T)) : (paint n l).length = n := by simp [paint]

theorem paint_get (n : Nat) (l : List (Span T)) (p : Nat) : (paint n l)[p]? = if p < n then some (cellAt l p) else none := by
  simp only [paint, List.getElem?_map]
  by_cases h : p < n
  · simp [List.getElem?_range h, h]
  · simp [List.getElem?_eq_none, h]

/-- Sequences painted differently but with the same cells. -/
theorem paint_congr {n : Nat} {a b : List (Span T)} (h : ∀ p, p < n → cellAt a p = cellAt b p) : paint n a = paint n b := by
  apply List.map_congr_left
  intro p hp
  exact h p (List.mem_range.1 hp)

theorem paint_append {n m : Nat} {a b : List (Span T)} (ha : SpansIn 0 n a) (hb : SpansIn n (n + m) b) :
    paint (n + m) (a ++ b) = paint n a ++ paint m (shiftDown n b) := by
  apply List.ext_getElem?
  intro p
  rw [List.getElem?_append, paint_length, paint_get, paint_get, paint_get, cellAt_append]
  by_cases h : p < n
  · rw [if_pos (by omega), if_pos h, if_pos h, hb.cell_low h]; simp
  · rw [if_neg h]
    by_cases h2 : p < n + m
    · rw [if_pos h2, if_pos (by omega), ha.cell_high (by omega), shiftDown_cell hb (Nat.le_refl _)]
      rw [show p - n + n = p by omega]; simp
    · rw [if_neg h2, if_neg (by omega)]

/-- What a leaf stands for. -/
def SpansLeaf.cells (l : SpansLeaf T) : List (Option T) := paint l.len l.spans

/-- A leaf in order and of the right size. -/
structure SpansLeaf.Ok (l : SpansLeaf T) : Prop where
  within : SpansIn 0 l.len l.spans
  size : l.spans.length ≤ 64

theorem SpansLeaf.cells_length (l : SpansLeaf T) : l.cells.length = l.len := paint_length _ _

theorem shiftDown_shiftUp (k : Nat) (l : List (Span T)) : shiftDown k (shiftUp k l) = l := by
  induction l with
  | nil => rfl
  | cons s l ih =>
    simp only [shiftDown, shiftUp, List.map_cons] at ih ⊢
    rw [ih]
    simp [Interval.translate]

theorem SpansLeaf.splitOff_spec {l : SpansLeaf T} (h : SpansIn 0 l.len l.spans) (hs : l.spans.length ≤ 128) :
    (l.spans.length ≤ 64 ∧ l.splitOff = some (l, none)) ∨
    (64 < l.spans.length ∧ ∃ a b, l.splitOff = some (a, some b) ∧ a.Ok ∧ b.Ok ∧ a.cells ++ b.cells = l.cells ∧
      32 ≤ a.spans.length ∧ 32 ≤ b.spans.length) := by
  obtain ⟨len, spans⟩ := l
  simp only at h hs ⊢
  by_cases hle : spans.length ≤ 64
  · exact .inl ⟨hle, by simp [splitOff, Spans.maxLeaf, hle]⟩
  · refine .inr ⟨by omega, ?_⟩
    have hi : spans.length / 2 < spans.length := by omega
    obtain ⟨s, hs0⟩ : ∃ s, spans[spans.length / 2]? = some s := ⟨_, List.getElem?_eq_getElem hi⟩
    have hd : spans.drop (spans.length / 2) = s :: spans.drop (spans.length / 2 + 1) := by
      rw [List.drop_eq_getElem_cons hi]
      rw [List.getElem?_eq_getElem hi] at hs0
      simp only [Option.some.injEq] at hs0
      rw [hs0]
    have hcat : spans = spans.take (spans.length / 2) ++ s :: spans.drop (spans.length / 2 + 1) := by
      rw [← hd, List.take_append_drop]
    have h' := h
    rw [hcat] at h'
    obtain ⟨h1, -⟩ := h'.before
    have h2 := h'.fromStart
    have hb : s.iv.start ≤ len := by have := h2.2.1; have := h2.2.2.1; omega
    rw [← hd] at h2
    have e : splitOff ⟨len, spans⟩ = some (⟨s.iv.start, spans.take (spans.length / 2)⟩,
        some ⟨len - s.iv.start, shiftDown s.iv.start (spans.drop (spans.length / 2))⟩) := by
      simp only [splitOff, Spans.maxLeaf]
      rw [if_neg hle]
      simp only [hs0, Option.bind_eq_bind, Option.bind_some, shiftBack_eq h2 (Nat.le_refl _)]
      rw [if_neg (by omega)]
      rfl
    refine ⟨_, _, e, ⟨h1, by simp; omega⟩, ⟨?_, by simp [shiftDown]; omega⟩, ?_, by simp; omega, by simp [shiftDown]; omega⟩
    · have := shiftDown_in h2 (Nat.le_refl _)
      rwa [Nat.sub_self] at this
    · simp only [cells]
      have h3 : SpansIn s.iv.start (s.iv.start + (len - s.iv.start)) (spans.drop (spans.length / 2)) := by
        rw [show s.iv.start + (len - s.iv.start) = len by omega]; exact h2
      rw [← paint_append h1 h3, List.take_append_drop]
      congr 1; omega

/-- Appending the part of `m` between two offsets. -/
theorem SpansLeaf.push_eq {l m : SpansLeaf T} {s e : Nat} (hl : SpansIn 0 l.len l.spans) (hm : SpansIn 0 m.len m.spans)
    (hse : s ≤ e) (he : e ≤ m.len) :
    l.push m ⟨s, e⟩ = splitOff ⟨l.len + (e - s), l.spans ++ clip l.len s e m.spans⟩ ∧
      SpansIn 0 (l.len + (e - s)) (l.spans ++ clip l.len s e m.spans) ∧
      cells ⟨l.len + (e - s), l.spans ++ clip l.len s e m.spans⟩ = l.cells ++ (m.cells.take e).drop s := by
  have hc := clip_in (off := l.len) hm hse
  refine ⟨?_, ?_, ?_⟩
  · simp [push, clipAll_eq, Interval.size, hse]
  · refine hl.append (mid := l.len) (hc.mono (by omega) (by omega)) (Nat.zero_le _) (by omega)
  · simp only [cells]
    apply List.ext_getElem?
    intro p
    rw [List.getElem?_append, paint_length, paint_get, paint_get, cellAt_append, List.getElem?_drop, List.getElem?_take, paint_get,
      clip_cell _ _ _ _ hse]
    by_cases h : p < l.len
    · rw [if_pos (by omega), if_pos h, if_pos h, if_neg (by omega)]; simp
    · rw [hl.cell_high (by omega), if_neg h]
      by_cases h2 : p < l.len + (e - s)
      · rw [if_pos h2, if_pos (by omega), if_pos (by omega), if_pos (by omega), show p - l.len + s = s + (p - l.len) by omega]; simp
      · rw [if_neg h2, if_neg (by omega)]

theorem SpansLeaf.cells_pos {l : SpansLeaf T} (h : l.Ok) (hs : 32 ≤ l.spans.length) : 0 < l.cells.length := by
  have := h.within.length_le (Nat.zero_le _)
  rw [cells_length]; omega

instance (T : Type) : LeafSpec (SpansLeaf T) SpansInfo (Option T) where
  content := SpansLeaf.cells
  ok := SpansLeaf.Ok
  valid _ := True
  valid_nil := trivial
  valid_append _ _ := trivial
  valid_right _ _ := trivial
  valid_left _ _ := trivial
  valid_content _ := trivial
  len_eq _ := (SpansLeaf.cells_length _).symm
  pos h hs := SpansLeaf.cells_pos h (by simpa [TreeLeaf.isOkChild] using hs)
  ok_default := ⟨trivial, by simp [TreeLeaf.default]⟩
  content_default := rfl
  push_whole := by
    intro l m hl hm hn
    obtain ⟨h1, h2, h3⟩ := SpansLeaf.push_eq hl.within hm.within (Nat.zero_le m.len) (Nat.le_refl _)
    have hcl := clip_whole (off := l.len) hm.within
    have hlen : (l.spans ++ clip l.len 0 m.len m.spans).length = l.spans.length + m.spans.length := by simp [hcl, shiftUp]
    have hsl := hl.size
    have hsm := hm.size
    rw [List.take_of_length_le (by rw [SpansLeaf.cells_length]; omega), List.drop_zero] at h3
    simp only [TreeLeaf.isOkChild, Spans.minLeaf, ge_iff_le, decide_eq_true_eq] at hn ⊢
    rcases SpansLeaf.splitOff_spec (l := ⟨l.len + (m.len - 0), l.spans ++ clip l.len 0 m.len m.spans⟩) h2 (by simp only [hlen]; omega) with ⟨a, b⟩ | ⟨a, x, y, b, c, d, e, f, g⟩
    · exact .inl ⟨_, h1.trans b, ⟨h2, a⟩, h3, fun h => by simp only [hlen]; omega⟩
    · exact .inr ⟨x, y, h1.trans b, c, d, e.trans h3, f, g⟩
  push_slice := by
    intro l s e hl hse he _ _
    rw [SpansLeaf.cells_length] at he
    obtain ⟨h1, h2, h3⟩ := SpansLeaf.push_eq (l := ⟨0, []⟩) trivial hl.within hse he
    have hlen := clip_length 0 s e l.spans
    have := hl.size
    rcases SpansLeaf.splitOff_spec (l := ⟨0 + (e - s), [] ++ clip 0 s e l.spans⟩) h2 (by simp; omega) with ⟨a, b⟩ | ⟨a, _⟩
    · exact ⟨_, h1.trans b, ⟨h2, a⟩, h3.trans rfl⟩
    · simp at a; omega

/-- Any range in bounds can be cut out of spans. -/
theorem spans_cut {t : List (Option T)} {i : Nat} (h : i ≤ t.length) : Cut (SpansLeaf T) t i := ⟨h, trivial, trivial⟩

/-! ## The builder -/

theorem SpansIn.both {lo hi lo' hi' : Nat} {l : List (Span T)} (h : SpansIn lo hi l) (h' : SpansIn lo' hi' l) : SpansIn lo hi' l := by
  cases l with
  | nil => trivial
  | cons s l => exact ⟨h.1, h'.2⟩

/-- What has been added to a builder. -/
structure SpansBuilder.Has (sb : SpansBuilder T) (total : Nat) (spans : List (Span T)) : Prop where
  tot : sb.totalLen = total
  len_le : sb.len ≤ total
  part : ∃ pre, SpansIn 0 sb.len pre ∧ SpansIn sb.len total (shiftUp sb.len sb.leaf.spans) ∧
    spans = pre ++ shiftUp sb.len sb.leaf.spans ∧ sb.b.Holds (paint sb.len pre)
  size : sb.leaf.spans.length ≤ 64
  fresh : sb.leaf.spans = [] → sb.len = 0

theorem SpansBuilder.has_new (n : Nat) : (SpansBuilder.new n : SpansBuilder T).Has n [] :=
  ⟨rfl, Nat.zero_le _, ⟨[], trivial, trivial, rfl, TreeBuilder.holds_new⟩, by simp [SpansBuilder.new], fun _ => rfl⟩

theorem SpansBuilder.Has.within {sb : SpansBuilder T} {n : Nat} {spans : List (Span T)} (h : sb.Has n spans) : SpansIn 0 n spans := by
  obtain ⟨pre, h1, h2, rfl, -⟩ := h.part
  exact h1.append h2 (Nat.zero_le _) h.len_le

theorem shiftUp_append (k : Nat) (a b : List (Span T)) : shiftUp k (a ++ b) = shiftUp k a ++ shiftUp k b := by simp [shiftUp]

theorem SpansBuilder.addSpan_spec {sb : SpansBuilder T} {n : Nat} {spans : List (Span T)} {iv : Interval} {data : T}
    (h : sb.Has n spans) (hs : SpansIn 0 n (spans ++ [⟨iv, data⟩])) :
    ∃ sb', sb.addSpan iv data = some sb' ∧ sb'.Has n (spans ++ [⟨iv, data⟩]) := by
  obtain ⟨h1, -⟩ := hs.before
  have h2 := hs.fromStart
  obtain ⟨pre, p1, p2, rfl, p4⟩ := h.part
  have h1 : SpansIn 0 iv.start (pre ++ shiftUp sb.len sb.leaf.spans) := h1
  have h2 : SpansIn iv.start n [⟨iv, data⟩] := h2
  have hne : iv.start < iv.stop := h2.2.1
  have hn : iv.stop ≤ n := h2.2.2.1
  have hlen : sb.len ≤ iv.start := by
    cases hl : sb.leaf.spans with
    | nil => rw [h.fresh hl]; omega
    | cons x l =>
      have b1 := p2.bounds ⟨x.iv.translate sb.len, x.data⟩ (by simp [shiftUp, hl])
      have b2 := h1.bounds ⟨x.iv.translate sb.len, x.data⟩ (by simp [shiftUp, hl])
      simp only at b1 b2
      omega
  have hshift : ∀ k, k ≤ iv.start → shiftUp k [⟨⟨iv.start - k, iv.stop - k⟩, data⟩] = [(⟨iv, data⟩ : Span T)] := by
    intro k hk
    simp only [shiftUp, List.map_cons, List.map_nil, Interval.translate, List.cons.injEq, and_true]
    rw [show iv.start - k + k = iv.start by omega, show iv.stop - k + k = iv.stop by omega]
  by_cases hfull : sb.leaf.spans.length = 64
  · have hin : SpansIn sb.len iv.start (shiftUp sb.len sb.leaf.spans) := p2.both h1.right
    have hleaf : SpansLeaf.Ok ⟨iv.start - sb.len, sb.leaf.spans⟩ := by
      refine ⟨?_, h.size⟩
      have := shiftDown_in hin (Nat.le_refl _)
      rwa [Nat.sub_self, shiftDown_shiftUp] at this
    obtain ⟨tb, e1, e2⟩ := TreeBuilder.push_spec p4 (Node.wf_fromLeaf (I := SpansInfo) (show LeafSpec.ok (_ : SpansLeaf T) from hleaf))
    have ht : paint sb.len pre ++ (Node.fromLeaf (L := SpansLeaf T) (I := SpansInfo) ⟨iv.start - sb.len, sb.leaf.spans⟩).text =
        paint iv.start (pre ++ shiftUp sb.len sb.leaf.spans) := by
      rw [Node.text_fromLeaf]
      have hin' : SpansIn sb.len (sb.len + (iv.start - sb.len)) (shiftUp sb.len sb.leaf.spans) := by
        rw [show sb.len + (iv.start - sb.len) = iv.start by omega]; exact hin
      have := paint_append p1 hin'
      rw [show sb.len + (iv.start - sb.len) = iv.start by omega, shiftDown_shiftUp] at this
      rw [this]; rfl
    rw [ht] at e2
    refine ⟨⟨tb, ⟨0, [⟨⟨iv.start - iv.start, iv.stop - iv.start⟩, data⟩]⟩, iv.start, sb.totalLen⟩, ?_, ⟨h.tot, by simp only; omega, ?_, by simp, by simp⟩⟩
    · simp only [addSpan, makeRoom, Spans.maxLeaf]
      rw [if_pos hfull, if_neg (by omega)]
      simp only [e1, Option.bind_eq_bind, Option.bind_some, Option.pure_def, Interval.translateNeg]
      rw [if_pos (by omega)]
      rfl
    · refine ⟨_, h1, ?_, ?_, e2⟩
      · simp only [hshift iv.start (Nat.le_refl _)]; exact h2
      · simp only [hshift iv.start (Nat.le_refl _)]
  · have hsz := h.size
    refine ⟨⟨sb.b, ⟨sb.leaf.len, sb.leaf.spans ++ [⟨⟨iv.start - sb.len, iv.stop - sb.len⟩, data⟩]⟩, sb.len, sb.totalLen⟩, ?_, ⟨h.tot, h.len_le, ?_, by simp; omega, by simp⟩⟩
    · simp only [addSpan, makeRoom, Spans.maxLeaf]
      rw [if_neg hfull]
      simp only [Option.bind_eq_bind, Option.bind_some, Option.pure_def, Interval.translateNeg]
      rw [if_pos (by omega)]
      rfl
    · refine ⟨pre, p1, ?_, ?_, p4⟩
      · simp only [shiftUp_append, hshift sb.len hlen]
        rw [List.append_assoc] at hs
        exact (p2.both h1.right).append h2 hlen (by omega)
      · simp only [shiftUp_append, hshift sb.len hlen, List.append_assoc]

theorem SpansBuilder.build_spec {sb : SpansBuilder T} {n : Nat} {spans : List (Span T)} (h : sb.Has n spans) :
    ∃ t, sb.build = some t ∧ t.text = paint n spans ∧ t.Balanced := by
  obtain ⟨pre, p1, p2, rfl, p4⟩ := h.part
  have hl := h.len_le
  have hleaf : SpansLeaf.Ok ⟨n - sb.len, sb.leaf.spans⟩ := by
    refine ⟨?_, h.size⟩
    have := shiftDown_in p2 (Nat.le_refl _)
    rwa [Nat.sub_self, shiftDown_shiftUp] at this
  obtain ⟨tb, e1, e2⟩ := TreeBuilder.push_spec p4 (Node.wf_fromLeaf (I := SpansInfo) (show LeafSpec.ok (_ : SpansLeaf T) from hleaf))
  obtain ⟨m, e3, e4, e5⟩ := TreeBuilder.build_spec e2
  refine ⟨m, ?_, ?_, e5⟩
  · simp only [build, h.tot]
    rw [if_neg (by omega)]
    simp [e1, e3]
  · rw [e4, Node.text_fromLeaf]
    have hin' : SpansIn sb.len (sb.len + (n - sb.len)) (shiftUp sb.len sb.leaf.spans) := by
      rw [show sb.len + (n - sb.len) = n by omega]; exact p2
    have := paint_append p1 hin'
    rw [show sb.len + (n - sb.len) = n by omega, shiftDown_shiftUp] at this
    rw [this]; rfl

/-! ## The iterator -/

/-- The spans of a sequence of leaves, the first of which begins at `off`. -/
def spansOf (off : Nat) : List (SpansLeaf T) → List (Span T)
  | [] => []
  | l :: ls => shiftUp off l.spans ++ spansOf (off + l.len) ls

theorem spansOf_in {ls : List (SpansLeaf T)} (h : ∀ l ∈ ls, l.Ok) (off : Nat) :
    SpansIn off (off + (ls.flatMap SpansLeaf.cells).length) (spansOf off ls) := by
  induction ls generalizing off with
  | nil => trivial
  | cons l ls ih =>
    have h1 := shiftUp_in off (h l (by simp)).within
    have h2 := ih (fun x hx => h x (by simp [hx])) (off + l.len)
    rw [List.flatMap_cons, List.length_append, SpansLeaf.cells_length, ← Nat.add_assoc]
    exact (h1.mono (by omega) (by omega)).append h2 (by omega) (by omega)

theorem spansOf_cell {ls : List (SpansLeaf T)} (h : ∀ l ∈ ls, l.Ok) (off p : Nat) :
    (ls.flatMap SpansLeaf.cells)[p]? = if p < (ls.flatMap SpansLeaf.cells).length then some (cellAt (spansOf off ls) (off + p)) else none := by
  induction ls generalizing off p with
  | nil => simp
  | cons l ls ih =>
    have ho : ∀ l ∈ ls, l.Ok := fun x hx => h x (by simp [hx])
    have ih := ih ho (off + l.len) (p - l.len)
    have h1 := shiftUp_in off (h l (by simp)).within
    have h2 := spansOf_in ho (off + l.len)
    rw [List.flatMap_cons, List.getElem?_append, SpansLeaf.cells_length, List.length_append, SpansLeaf.cells_length, spansOf, cellAt_append]
    by_cases hp : p < l.len
    · rw [if_pos hp, if_pos (by omega), SpansLeaf.cells, paint_get, if_pos hp, shiftUp_cell, if_pos (by omega), h2.cell_low (by omega)]
      simp
    · rw [if_neg hp, ih, h1.cell_high (by omega)]
      by_cases h3 : p < l.len + (ls.flatMap SpansLeaf.cells).length
      · rw [if_pos (by omega), if_pos h3, show off + l.len + (p - l.len) = off + p by omega]; simp
      · rw [if_neg (by omega), if_neg h3]

theorem spansOf_paint {ls : List (SpansLeaf T)} (h : ∀ l ∈ ls, l.Ok) :
    paint (ls.flatMap SpansLeaf.cells).length (spansOf 0 ls) = ls.flatMap SpansLeaf.cells := by
  apply List.ext_getElem?
  intro p
  rw [paint_get, spansOf_cell h 0 p, Nat.zero_add]

/-- Trees with more than one leaf have no leaf without spans. -/
theorem leaf_spans {h : Nat} {n : SpansTree T} (hw : n.WF h) (ho : n.isOkChild = true ∨ 0 < h) : ∀ l ∈ n.leaves, l.spans ≠ [] := by
  induction h generalizing n with
  | zero =>
    obtain ⟨l, rfl, hl⟩ := hw.leafNode
    intro m hm
    have : m = l := by simpa [Node.fromLeaf, Node.leaves] using hm
    subst this
    rcases ho with ho | ho
    · simp only [Node.fromLeaf, Node.isOkChild, TreeLeaf.isOkChild, Spans.minLeaf, decide_eq_true_eq] at ho
      intro he
      rw [he] at ho
      simp at ho
    · omega
  | succ h ih =>
    obtain ⟨len, info, cs, rfl, _, _, hk⟩ := hw.kids
    intro m hm
    rw [Node.leaves, leavesList_eq, List.mem_flatMap] at hm
    obtain ⟨c, hc, hm⟩ := hm
    exact ih (hk c hc).1 (.inl (hk c hc).2) m hm

theorem leaves_spans {n : SpansTree T} (hb : n.Balanced) : (∃ l, n.leaves = [l]) ∨ ∀ l ∈ n.leaves, l.spans ≠ [] := by
  obtain ⟨h, hw⟩ := hb
  cases h with
  | zero =>
    obtain ⟨l, rfl, hl⟩ := hw.leafNode
    exact .inl ⟨l, by simp [Node.fromLeaf, Node.leaves]⟩
  | succ h => exact .inr (leaf_spans hw (.inr (by omega)))

/-- The number of spans in some leaves. -/
def countSpans (ls : List (SpansLeaf T)) : Nat := (ls.map (fun l => l.spans.length)).sum

theorem lenOf_cells (pre : List (SpansLeaf T)) : lenOf pre = (pre.flatMap SpansLeaf.cells).length := rfl

theorem SpanIter.collect_spec (post : List (SpansLeaf T)) :
    ∀ {pre : List (SpansLeaf T)} {l : SpansLeaf T} {c : Cursor (SpansLeaf T) SpansInfo} (fuel k : Nat) (i : Nat),
      c.At pre l post → c.position = lenOf pre → k = l.spans.length - i → i < l.spans.length → (∀ m ∈ post, m.spans ≠ []) →
      k + countSpans post < fuel →
      SpanIter.collect fuel ⟨c, i⟩ = some (shiftUp (lenOf pre) (l.spans.drop i) ++ spansOf (lenOf pre + l.len) post) := by
  induction post with
  | nil =>
    intro pre l c fuel k
    induction k generalizing fuel with
    | zero => intro i _ _ hk hi; omega
    | succ k ih =>
      intro i ha hp hk hi hne hf
      cases fuel with
      | zero => omega
      | succ fuel =>
        have hg : c.getLeaf = some (some (l, 0)) := by
          simp only [Cursor.getLeaf, ha.leaf, ha.off, hp]
          rw [if_pos (Nat.le_refl _), Nat.sub_self]
        have hd : l.spans.drop i = l.spans[i] :: l.spans.drop (i + 1) := List.drop_eq_getElem_cons hi
        have hemp : l.spans.isEmpty = false := by
          cases hl : l.spans with
          | nil => rw [hl] at hi; simp at hi
          | cons => rfl
        have hgi : l.spans[i]? = some l.spans[i] := List.getElem?_eq_getElem hi
        simp only [SpanIter.collect, SpanIter.next, hg, Option.bind_eq_bind, Option.bind_some, hemp, hgi]
        rw [if_neg (by simp), if_neg (by omega)]
        by_cases hlast : i + 1 = l.spans.length
        · obtain ⟨c', e, hl', -⟩ := Cursor.nextLeaf_none ha
          rw [if_pos hlast]
          simp only [e, Option.bind_some, Option.pure_def]
          have hfu : ∃ f, fuel = f + 1 := ⟨fuel - 1, by omega⟩
          obtain ⟨f, rfl⟩ := hfu
          have hg' : c'.getLeaf = some none := by simp [Cursor.getLeaf, hl']
          simp only [SpanIter.collect, SpanIter.next, hg', Option.bind_eq_bind, Option.bind_some, Option.pure_def]
          rw [hd, hlast, List.drop_length]
          simp [shiftUp, spansOf, hp]
        · rw [if_neg hlast]
          have := ih fuel (i + 1) ha hp (by omega) (by omega) hne (by omega)
          simp only [Option.bind_some, Option.pure_def, this]
          rw [hd, hp]
          rfl
  | cons m post ihp =>
    intro pre l c fuel k
    induction k generalizing fuel with
    | zero => intro i _ _ hk hi; omega
    | succ k ih =>
      intro i ha hp hk hi hne hf
      cases fuel with
      | zero => omega
      | succ fuel =>
        have hg : c.getLeaf = some (some (l, 0)) := by
          simp only [Cursor.getLeaf, ha.leaf, ha.off, hp]
          rw [if_pos (Nat.le_refl _), Nat.sub_self]
        have hd : l.spans.drop i = l.spans[i] :: l.spans.drop (i + 1) := List.drop_eq_getElem_cons hi
        have hemp : l.spans.isEmpty = false := by
          cases hl : l.spans with
          | nil => rw [hl] at hi; simp at hi
          | cons => rfl
        have hgi : l.spans[i]? = some l.spans[i] := List.getElem?_eq_getElem hi
        simp only [SpanIter.collect, SpanIter.next, hg, Option.bind_eq_bind, Option.bind_some, hemp, hgi]
        rw [if_neg (by simp), if_neg (by omega)]
        by_cases hlast : i + 1 = l.spans.length
        · obtain ⟨c', e, ha', hr, hp'⟩ := Cursor.nextLeaf_some ha
          rw [if_pos hlast]
          have hmpos : 0 < m.spans.length := List.length_pos_iff.2 (hne m (by simp))
          have hcs : countSpans (m :: post) = m.spans.length + countSpans post := by simp [countSpans]
          have := ihp fuel m.spans.length 0 ha' hp' (by omega) hmpos (fun x hx => hne x (by simp [hx])) (by omega)
          have hl1 : lenOf (pre ++ [l]) = lenOf pre + l.len := by
            rw [lenOf_append, lenOf_cells [l]]; simp [SpansLeaf.cells_length]
          simp only [e, Option.bind_some, Option.pure_def, this]
          rw [hd, hlast, List.drop_length]
          simp [shiftUp, spansOf, hp, hl1]
        · rw [if_neg hlast]
          have := ih fuel (i + 1) ha hp (by omega) (by omega) hne (by omega)
          simp only [Option.bind_some, Option.pure_def, this]
          rw [hd, hp]
          rfl

theorem SpansTree.iter_eq {n : SpansTree T} (hb : n.Balanced) : n.iter = some (spansOf 0 n.leaves) := by
  obtain ⟨c, pre, l, post, e, hv, hr, hp⟩ := Cursor.new_spec hb (p := 0) (Nat.zero_le _)
  have hl := hv.toAt.leaves
  rw [hr] at hl
  have hlo := hv.lo
  have hpre : pre = [] := by
    apply Classical.byContradiction
    intro hne
    have hpos := leaves_pos hb hl (.inl hne)
    obtain ⟨x, pre', rfl⟩ := List.exists_cons_of_ne_nil hne
    have := (hpos x (by rw [hl]; simp)).2
    rw [lenOf_cons] at hlo
    omega
  subst hpre
  simp only [SpansTree.iter, e, Option.bind_eq_bind, Option.bind_some]
  have h0 : c.position = lenOf ([] : List (SpansLeaf T)) := by rw [hp]; rfl
  have hcount : (n.leaves.map (fun l => l.spans.length)).sum = l.spans.length + countSpans post := by rw [hl]; simp [countSpans]
  by_cases hemp : l.spans = []
  · have hone : post = [] := by
      rcases leaves_spans hb with ⟨x, hx⟩ | hx
      · rw [hl] at hx; simp at hx; exact hx.2
      · exact absurd hemp (hx l (by rw [hl]; simp))
    subst hone
    have hg : c.getLeaf = some (some (l, 0)) := by
      simp only [Cursor.getLeaf, hv.leaf, hv.off, h0]
      rw [if_pos (Nat.le_refl _), Nat.sub_self]
    rw [hcount, hl]
    simp [SpanIter.collect, SpanIter.next, hg, hemp, spansOf, shiftUp]
  · have hne : ∀ m ∈ post, m.spans ≠ [] := by
      rcases leaves_spans hb with ⟨x, hx⟩ | hx
      · rw [hl] at hx; simp at hx
        rw [hx.2]; simp
      · exact fun m hm => hx m (by rw [hl]; simp [hm])
    rw [SpanIter.collect_spec post _ l.spans.length 0 hv.toAt h0 (by omega) (List.length_pos_iff.2 hemp) hne (by rw [hcount]; omega), hl]
    simp [spansOf, lenOf_nil]

/-- `iter` gives the spans in order, and they are what the tree stands for. -/
theorem SpansTree.iter_spec {n : SpansTree T} (hb : n.Balanced) :
    ∃ spans, n.iter = some spans ∧ SpansIn 0 n.text.length spans ∧ paint n.text.length spans = n.text := by
  have hok : ∀ l ∈ n.leaves, l.Ok := by
    obtain ⟨h, hw⟩ := hb
    exact leaf_ok hw
  refine ⟨_, SpansTree.iter_eq hb, ?_, spansOf_paint hok⟩
  have := spansOf_in hok 0
  rw [Nat.zero_add] at this
  exact this

/-! ## Merging -/

theorem intersect_empty_iff (a b : Interval) : (a.intersect b).isEmpty = true ↔ ¬ (max a.start b.start < min a.stop b.stop) := by
  unfold Interval.isEmpty Interval.intersect
  rw [decide_eq_true_iff]
  show max (max a.start b.start) (min a.stop b.stop) ≤ max a.start b.start ↔ _
  omega

theorem cellAt_one (s : Span T) (p : Nat) : cellAt [s] p = if s.iv.start ≤ p ∧ p < s.iv.stop then some s.data else none := by
  rw [cellAt_cons, cellAt_nil]

/-- Adding one span at the end. -/
theorem SpansBuilder.addSpan_next {sb : SpansBuilder T} {n lo : Nat} {out : List (Span T)} {iv : Interval} {data : T}
    (h : sb.Has n out) (ho : SpansIn 0 lo out) (h1 : lo ≤ iv.start) (h2 : iv.start < iv.stop) (h3 : iv.stop ≤ n) :
    ∃ sb', sb.addSpan iv data = some sb' ∧ sb'.Has n (out ++ [⟨iv, data⟩]) ∧ SpansIn 0 iv.stop (out ++ [⟨iv, data⟩]) := by
  have hin : ∀ k, iv.stop ≤ k → SpansIn 0 k (out ++ [(⟨iv, data⟩ : Span T)]) := fun k hk =>
    ho.append ⟨h1, h2, hk, trivial⟩ (Nat.zero_le _) (by omega)
  obtain ⟨sb', e, h'⟩ := SpansBuilder.addSpan_spec h (hin n h3)
  exact ⟨sb', e, h', hin _ (Nat.le_refl _)⟩

theorem SpansTree.addRest_spec (f : T → Option T → O) (rest : List (Span T)) :
    ∀ {sb : SpansBuilder O} {n lo : Nat} {out : List (Span O)}, sb.Has n out → SpansIn 0 lo out → SpansIn lo n rest →
      ∃ sb', addRest f sb rest = some sb' ∧ sb'.Has n (out ++ rest.map (fun s => ⟨s.iv, f s.data none⟩)) := by
  induction rest with
  | nil => intro sb n lo out h _ _; exact ⟨sb, rfl, by simpa using h⟩
  | cons s rest ih =>
    intro sb n lo out h ho hr
    obtain ⟨h1, h2, h3, h4⟩ := hr
    obtain ⟨sb1, e1, a1, a2⟩ := SpansBuilder.addSpan_next (data := f s.data none) h ho h1 h2 h3
    obtain ⟨sb2, e2, a3⟩ := ih a1 a2 h4
    exact ⟨sb2, by simp [addRest, e1, e2], by simpa using a3⟩

theorem mapSpans_in {g : T → O} {lo hi : Nat} {l : List (Span T)} (h : SpansIn lo hi l) :
    SpansIn lo hi (l.map (fun s => (⟨s.iv, g s.data⟩ : Span O))) := by
  induction l generalizing lo with
  | nil => trivial
  | cons s l ih => exact ⟨h.1, h.2.1, h.2.2.1, ih h.2.2.2⟩

theorem mapSpans_cell (g : T → O) (l : List (Span T)) (p : Nat) :
    cellAt (l.map (fun s => (⟨s.iv, g s.data⟩ : Span O))) p = (cellAt l p).map g := by
  induction l with
  | nil => rfl
  | cons s l ih =>
    rw [List.map_cons, cellAt_cons, cellAt_cons, ih]
    split <;> rfl

theorem mergeCell_none_right (f : T → Option T → O) (x : Option T) : mergeCell f x none = x.map (fun a => f a none) := by
  cases x <;> rfl

theorem mergeCell_none_left (f : T → Option T → O) (x : Option T) : mergeCell f none x = x.map (fun a => f a none) := by
  cases x <;> rfl

theorem SpansTree.mergeLead_spec (f : T → Option T → O) {sb : SpansBuilder O} {n lo : Nat} {out : List (Span O)} {r b : Span T}
    (h : sb.Has n out) (ho : SpansIn 0 lo out) (hr : lo ≤ r.iv.start) (hb : lo ≤ b.iv.start)
    (hov : max r.iv.start b.iv.start < min r.iv.stop b.iv.stop) (hrn : r.iv.stop ≤ n) (hbn : b.iv.stop ≤ n) :
    ∃ sb' lead, mergeLead f sb r b = some (sb', ⟨max r.iv.start b.iv.start, r.iv.stop⟩, ⟨max r.iv.start b.iv.start, b.iv.stop⟩) ∧
      sb'.Has n (out ++ lead) ∧ SpansIn lo (max r.iv.start b.iv.start) lead ∧
      ∀ p, p < max r.iv.start b.iv.start → cellAt lead p = mergeCell f (cellAt [r] p) (cellAt [b] p) := by
  obtain ⟨⟨rs, re⟩, rd⟩ := r
  obtain ⟨⟨bs, be⟩, bd⟩ := b
  simp only at hr hb hov hrn hbn ⊢
  simp only [mergeLead]
  by_cases h1 : rs < bs
  · have e1 : Interval.pre ⟨rs, re⟩ ⟨bs, be⟩ = ⟨rs, bs⟩ := by simp only [Interval.pre, Interval.mk.injEq]; omega
    have e2 : Interval.suf ⟨rs, re⟩ ⟨rs, bs⟩ = ⟨max rs bs, re⟩ := by
      show (⟨max rs bs, max re bs⟩ : Interval) = _
      rw [show max re bs = re by omega]
    obtain ⟨sb', a1, a2, a3⟩ := SpansBuilder.addSpan_next (iv := ⟨rs, bs⟩) (data := f rd none) h ho hr h1 (by simp only; omega)
    refine ⟨sb', [⟨⟨rs, bs⟩, f rd none⟩], ?_, a2, ⟨hr, h1, by simp only; omega, trivial⟩, ?_⟩
    · rw [if_pos h1, e1, e2, a1]
      simp only [Option.bind_eq_bind, Option.bind_some, Option.pure_def, Option.some.injEq, Prod.mk.injEq, Interval.mk.injEq, true_and, and_true]
      omega
    · intro p hp
      simp only [cellAt_one]
      rw [if_neg (c := bs ≤ p ∧ p < be) (by omega), mergeCell_none_right]
      by_cases hc : rs ≤ p
      · rw [if_pos (by omega), if_pos (by omega)]; rfl
      · rw [if_neg (by omega), if_neg (by omega)]; rfl
  · rw [if_neg h1]
    by_cases h2 : bs < rs
    · have e1 : Interval.pre ⟨bs, be⟩ ⟨rs, re⟩ = ⟨bs, rs⟩ := by simp only [Interval.pre, Interval.mk.injEq]; omega
      have e2 : Interval.suf ⟨bs, be⟩ ⟨bs, rs⟩ = ⟨max rs bs, be⟩ := by simp only [Interval.suf, Interval.mk.injEq]; omega
      obtain ⟨sb', a1, a2, a3⟩ := SpansBuilder.addSpan_next (iv := ⟨bs, rs⟩) (data := f bd none) h ho hb h2 (by simp only; omega)
      refine ⟨sb', [⟨⟨bs, rs⟩, f bd none⟩], ?_, a2, ⟨hb, h2, by simp only; omega, trivial⟩, ?_⟩
      · rw [if_pos h2, e1, e2, a1]
        simp only [Option.bind_eq_bind, Option.bind_some, Option.pure_def, Option.some.injEq, Prod.mk.injEq, Interval.mk.injEq, true_and, and_true]
        omega
      · intro p hp
        simp only [cellAt_one]
        rw [if_neg (c := rs ≤ p ∧ p < re) (by omega), mergeCell_none_left]
        by_cases hc : bs ≤ p
        · rw [if_pos (by omega), if_pos (by omega)]; rfl
        · rw [if_neg (by omega), if_neg (by omega)]; rfl
    · rw [if_neg h2]
      refine ⟨sb, [], ?_, by simpa using h, trivial, ?_⟩
      · simp only [Option.some.injEq, Prod.mk.injEq, Interval.mk.injEq, true_and, and_true]; omega
      · intro p hp
        simp only [cellAt_one, cellAt_nil]
        rw [if_neg (by omega), if_neg (by omega)]; rfl

theorem SpansTree.putBack_in {e stop n : Nat} {v : T} {rest : List (Span T)} (hr : SpansIn stop n rest) (he : e ≤ stop) (hn : stop ≤ n) :
    SpansIn e n (putBack ⟨e, stop⟩ v rest) := by
  simp only [putBack, Interval.isEmpty, decide_eq_true_eq]
  by_cases h : stop ≤ e
  · rw [if_pos h]; exact hr.mono he (Nat.le_refl _)
  · rw [if_neg h]; exact ⟨Nat.le_refl _, by simp only; omega, hn, hr⟩

theorem SpansTree.putBack_cell {e p : Nat} {r : Span T} {rest : List (Span T)} (hp : e ≤ p) (he : r.iv.start ≤ e) :
    cellAt (putBack ⟨e, r.iv.stop⟩ r.data rest) p = cellAt (r :: rest) p := by
  simp only [putBack, Interval.isEmpty, decide_eq_true_eq]
  by_cases h : r.iv.stop ≤ e
  · rw [if_pos h, cellAt_cons, if_neg (by omega)]
  · rw [if_neg h, cellAt_cons, cellAt_cons]
    simp only
    by_cases h2 : p < r.iv.stop
    · rw [if_pos (by omega), if_pos (by omega)]
    · rw [if_neg (by omega), if_neg (by omega)]

theorem SpansTree.putBack_length (iv : Interval) (v : T) (rest : List (Span T)) :
    (putBack iv v rest).length = rest.length + if iv.stop ≤ iv.start then 0 else 1 := by
  simp only [putBack, Interval.isEmpty, decide_eq_true_eq]
  split <;> simp

theorem SpansTree.mergeLoop_spec (f : T → Option T → O) (fuel : Nat) :
    ∀ {red blue : List (Span T)} {sb : SpansBuilder O} {n lo : Nat} {out : List (Span O)},
      sb.Has n out → SpansIn 0 lo out → SpansIn lo n red → SpansIn lo n blue → red.length + blue.length < fuel →
      ∃ sb' new, mergeLoop f fuel red blue sb = some sb' ∧ sb'.Has n (out ++ new) ∧ SpansIn lo n new ∧
        ∀ p, cellAt new p = mergeCell f (cellAt red p) (cellAt blue p) := by
  induction fuel with
  | zero => intro red blue sb n lo out _ _ _ _ hf; omega
  | succ fuel ih =>
    intro red blue sb n lo out h ho hr hb hf
    match red, blue with
    | [], [] => exact ⟨sb, [], rfl, by simpa using h, trivial, fun p => rfl⟩
    | r :: red, [] =>
      obtain ⟨sb', e, a⟩ := addRest_spec f (r :: red) h ho hr
      exact ⟨sb', _, by simpa only [mergeLoop] using e, a, mapSpans_in (g := fun a => f a none) hr,
        fun p => by rw [mapSpans_cell (fun a => f a none), cellAt_nil, mergeCell_none_right]⟩
    | [], b :: blue =>
      obtain ⟨sb', e, a⟩ := addRest_spec f (b :: blue) h ho hb
      exact ⟨sb', _, by simpa only [mergeLoop] using e, a, mapSpans_in (g := fun a => f a none) hb,
        fun p => by rw [mapSpans_cell (fun a => f a none), cellAt_nil, mergeCell_none_left]⟩
    | r :: red, b :: blue =>
      obtain ⟨r1, r2, r3, r4⟩ := hr
      obtain ⟨b1, b2, b3, b4⟩ := hb
      simp only [mergeLoop]
      by_cases hov : max r.iv.start b.iv.start < min r.iv.stop b.iv.stop
      · have hne : (r.iv.intersect b.iv).isEmpty = false := by
          rw [Bool.eq_false_iff, ne_eq, intersect_empty_iff]; omega
        rw [hne, if_neg (by simp)]
        obtain ⟨sb1, lead, e1, l1, l2, l3⟩ := mergeLead_spec f h ho r1 b1 hov r3 b3
        generalize hm : max r.iv.start b.iv.start = m at *
        generalize he : min r.iv.stop b.iv.stop = e at *
        have hi : Interval.intersect ⟨m, r.iv.stop⟩ ⟨m, b.iv.stop⟩ = ⟨m, e⟩ := by
          simp only [Interval.intersect, Interval.mk.injEq]; omega
        have hs1 : Interval.suf ⟨m, r.iv.stop⟩ ⟨m, e⟩ = ⟨e, r.iv.stop⟩ := by
          simp only [Interval.suf, Interval.mk.injEq]; omega
        have hs2 : Interval.suf ⟨m, b.iv.stop⟩ ⟨m, e⟩ = ⟨e, b.iv.stop⟩ := by
          simp only [Interval.suf, Interval.mk.injEq]; omega
        have ho1 : SpansIn 0 m (out ++ lead) := ho.append l2 (Nat.zero_le _) (by omega)
        obtain ⟨sb2, e2, a1, a2⟩ := SpansBuilder.addSpan_next (iv := ⟨m, e⟩) (data := f r.data (some b.data)) l1 ho1 (Nat.le_refl _) hov (by simp only; omega)
        have k1 := putBack_in (v := r.data) r4 (by omega : e ≤ r.iv.stop) r3
        have k2 := putBack_in (v := b.data) b4 (by omega : e ≤ b.iv.stop) b3
        have n1 := putBack_length ⟨e, r.iv.stop⟩ r.data red
        have n2 := putBack_length ⟨e, b.iv.stop⟩ b.data blue
        have hlen : (putBack ⟨e, r.iv.stop⟩ r.data red).length + (putBack ⟨e, b.iv.stop⟩ b.data blue).length < fuel := by
          rw [n1, n2]
          simp only [List.length_cons] at hf ⊢
          by_cases hc : r.iv.stop ≤ e
          · rw [if_pos hc]; split <;> omega
          · rw [if_neg hc, if_pos (by omega)]; omega
        obtain ⟨sb3, new, e3, a3, a4, a5⟩ := ih a1 a2 k1 k2 hlen
        refine ⟨sb3, lead ++ ⟨⟨m, e⟩, f r.data (some b.data)⟩ :: new, ?_, by simpa using a3, ?_, ?_⟩
        · simp only [e1, Option.bind_eq_bind, Option.bind_some, ne_eq, not_true_eq_false, if_false, hi, hs1, hs2, Interval.isEmpty, decide_eq_true_eq]
          rw [if_neg (by omega), e2]
          simp only [Option.bind_some]
          rw [if_neg (by omega), e3]
        · exact l2.append ⟨Nat.le_refl _, hov, by simp only; omega, a4⟩ (by omega) (by omega)
        · intro p
          have a4' : SpansIn e n new := a4
          rw [cellAt_append, cellAt_cons]
          simp only
          by_cases hp1 : p < m
          · rw [l3 p hp1, if_neg (by omega), a4'.cell_low (by omega), Option.or_none, cellAt_one, cellAt_one, cellAt_cons, cellAt_cons b,
              r4.cell_low (by omega), b4.cell_low (by omega)]
          · rw [l2.cell_high (by omega), Option.none_or]
            by_cases hp2 : p < e
            · rw [if_pos (by omega), cellAt_cons, cellAt_cons, if_pos (by omega), if_pos (by omega)]; rfl
            · rw [if_neg (by omega), a5, putBack_cell (by omega) (by omega), putBack_cell (by omega) (by omega)]
      · have hne : (r.iv.intersect b.iv).isEmpty = true := by
          rw [intersect_empty_iff]; omega
        rw [hne, if_pos rfl]
        simp only [Interval.isBefore, decide_eq_true_eq]
        simp only [List.length_cons] at hf
        by_cases hbef : r.iv.stop ≤ b.iv.start
        · rw [if_pos hbef]
          obtain ⟨sb1, e1, a1, a2⟩ := SpansBuilder.addSpan_next (data := f r.data none) h ho r1 r2 r3
          have hb' : SpansIn r.iv.stop n (b :: blue) := ⟨hbef, b2, b3, b4⟩
          obtain ⟨sb2, new, e2, a3, a4, a5⟩ := ih a1 a2 r4 hb' (by simp only [List.length_cons]; omega)
          refine ⟨sb2, ⟨r.iv, f r.data none⟩ :: new, by simp [e1, e2], by simpa using a3, ⟨r1, r2, r3, a4⟩, ?_⟩
          intro p
          rw [cellAt_cons, a5, cellAt_cons r]
          simp only
          by_cases hp : r.iv.start ≤ p ∧ p < r.iv.stop
          · rw [if_pos hp, if_pos hp, hb'.cell_low hp.2]; rfl
          · rw [if_neg hp, if_neg hp]
        · rw [if_neg hbef]
          obtain ⟨sb1, e1, a1, a2⟩ := SpansBuilder.addSpan_next (data := f b.data none) h ho b1 b2 b3
          have hr' : SpansIn b.iv.stop n (r :: red) := ⟨by omega, r2, r3, r4⟩
          obtain ⟨sb2, new, e2, a3, a4, a5⟩ := ih a1 a2 hr' b4 (by simp only [List.length_cons]; omega)
          refine ⟨sb2, ⟨b.iv, f b.data none⟩ :: new, by simp [e1, e2], by simpa using a3, ⟨b1, b2, b3, a4⟩, ?_⟩
          intro p
          rw [cellAt_cons, a5, cellAt_cons b]
          simp only
          by_cases hp : b.iv.start ≤ p ∧ p < b.iv.stop
          · rw [if_pos hp, if_pos hp, hr'.cell_low hp.2]; rfl
          · rw [if_neg hp, if_neg hp]

theorem SpansTree.merge_spec {a b : SpansTree T} (f : T → Option T → O) (ha : a.Balanced) (hb : b.Balanced)
    (hlen : a.text.length = b.text.length) :
    ∃ n, a.merge b f = some n ∧ n.Balanced ∧ n.text = List.zipWith (mergeCell f) a.text b.text := by
  obtain ⟨sa, i1, i2, i3⟩ := iter_spec ha
  obtain ⟨sb, j1, j2, j3⟩ := iter_spec hb
  have hla : a.len = a.text.length := by obtain ⟨h, hw⟩ := ha; exact hw.len_eq
  have hlb : b.len = b.text.length := by obtain ⟨h, hw⟩ := hb; exact hw.len_eq
  have hj : SpansIn 0 a.text.length sb := by rw [hlen]; exact j2
  obtain ⟨bl, new, e1, a1, a2, a3⟩ := mergeLoop_spec f (sa.length + sb.length + 1) (SpansBuilder.has_new a.text.length) trivial i2 hj (by omega)
  obtain ⟨n, e2, t, w⟩ := SpansBuilder.build_spec a1
  refine ⟨n, ?_, w, ?_⟩
  · simp only [SpansTree.merge]
    rw [if_neg (by rw [hla, hlb]; simp [hlen]), hla]
    simp [i1, j1, e1, e2]
  · rw [t]
    apply List.ext_getElem?
    intro p
    rw [List.nil_append, paint_get, List.getElem?_zipWith, ← i3, ← j3, paint_get, paint_get, a3]
    simp only [paint_length]
    by_cases hp : p < a.text.length
    · rw [if_pos hp, if_pos hp, if_pos (by omega)]
    · rw [if_neg hp, if_neg hp]

end Xi
