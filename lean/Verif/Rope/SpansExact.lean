import Verif.Rope.SpansLemmas

/-!
# The spans of a tree, one by one

The cells of `SpansLemmas` do not tell two neighbouring spans with the same data from one long span.  Here each cell also says where its span
begins and ends; so the same theorems on trees tell which spans there are.
-/

namespace Xi

variable {T : Type}

/-- What is at an offset, how far the span goes back from there, and how far on. -/
def markAt (spans : List (Span T)) (p : Nat) : Option (T × Nat × Nat) :=
  (spans.find? (fun s => s.iv.start ≤ p ∧ p < s.iv.stop)).map fun s => (s.data, p - s.iv.start, s.iv.stop - p)

/-- The marks of a text of length `len`. -/
def marks (len : Nat) (spans : List (Span T)) : List (Option (T × Nat × Nat)) := (List.range len).map (markAt spans)

theorem markAt_nil (p : Nat) : markAt ([] : List (Span T)) p = none := rfl

theorem markAt_cons (s : Span T) (l : List (Span T)) (p : Nat) :
    markAt (s :: l) p = if s.iv.start ≤ p ∧ p < s.iv.stop then some (s.data, p - s.iv.start, s.iv.stop - p) else markAt l p := by
  simp only [markAt, List.find?_cons]
  by_cases h : s.iv.start ≤ p ∧ p < s.iv.stop <;> simp [h]

theorem markAt_append (a b : List (Span T)) (p : Nat) : markAt (a ++ b) p = (markAt a p).or (markAt b p) := by
  induction a with
  | nil => simp [markAt_nil]
  | cons s a ih => rw [List.cons_append, markAt_cons, markAt_cons]; split <;> simp [ih]

theorem SpansIn.mark_low {lo hi p : Nat} {l : List (Span T)} (h : SpansIn lo hi l) (hp : p < lo) : markAt l p = none := by
  induction l generalizing lo with
  | nil => rfl
  | cons s l ih =>
    obtain ⟨h1, h2, h3, h4⟩ := h
    rw [markAt_cons, if_neg (by omega)]
    exact ih h4 (by omega)

theorem SpansIn.mark_high {lo hi p : Nat} {l : List (Span T)} (h : SpansIn lo hi l) (hp : hi ≤ p) : markAt l p = none := by
  induction l generalizing lo with
  | nil => rfl
  | cons s l ih =>
    obtain ⟨h1, h2, h3, h4⟩ := h
    rw [markAt_cons, if_neg (by omega)]
    exact ih h4

/-- A span marks all its places. -/
theorem SpansIn.mark_of {lo hi p : Nat} {l : List (Span T)} (h : SpansIn lo hi l) {s : Span T} (hs : s ∈ l) (h1 : s.iv.start ≤ p) (h2 : p < s.iv.stop) :
    markAt l p = some (s.data, p - s.iv.start, s.iv.stop - p) := by
  induction l generalizing lo with
  | nil => cases hs
  | cons x l ih =>
    obtain ⟨g1, g2, g3, g4⟩ := h
    rw [markAt_cons]
    rcases List.mem_cons.1 hs with rfl | hs
    · rw [if_pos ⟨h1, h2⟩]
    · have := (g4.bounds s hs).1
      rw [if_neg (by omega)]
      exact ih g4 hs

theorem markAt_some {l : List (Span T)} {p : Nat} {d : T} {i j : Nat} (h : markAt l p = some (d, i, j)) :
    ∃ s ∈ l, s.data = d ∧ s.iv.start + i = p ∧ p + j = s.iv.stop ∧ 0 < j := by
  simp only [markAt, Option.map_eq_some_iff] at h
  obtain ⟨s, h1, h2⟩ := h
  have hm := List.mem_of_find?_eq_some h1
  have hp := List.find?_some h1
  simp only [decide_eq_true_eq] at hp
  simp only [Prod.mk.injEq] at h2
  obtain ⟨rfl, rfl, rfl⟩ := h2
  exact ⟨s, hm, rfl, by omega, by omega, by omega⟩

theorem markAt_data {l : List (Span T)} (p : Nat) : (markAt l p).map Prod.fst = cellAt l p := by
  simp [markAt, cellAt, Function.comp_def]

/-- The marks tell which spans there are. -/
theorem marks_unique {lo hi : Nat} {a b : List (Span T)} (ha : SpansIn lo hi a) (hb : SpansIn lo hi b) (h : ∀ p, markAt a p = markAt b p) : a = b := by
  induction a generalizing lo b with
  | nil =>
    cases b with
    | nil => rfl
    | cons t b =>
      have := h t.iv.start
      rw [markAt_cons, if_pos ⟨Nat.le_refl _, hb.2.1⟩] at this
      cases this
  | cons s a ih =>
    obtain ⟨a1, a2, a3, a4⟩ := ha
    cases b with
    | nil =>
      have := h s.iv.start
      rw [markAt_cons, if_pos ⟨Nat.le_refl _, a2⟩] at this
      cases this
    | cons t b =>
      obtain ⟨b1, b2, b3, b4⟩ := hb
      have hs := h s.iv.start
      rw [markAt_cons, if_pos ⟨Nat.le_refl _, a2⟩, markAt_cons] at hs
      have ht := h t.iv.start
      rw [markAt_cons (l := b), if_pos ⟨Nat.le_refl _, b2⟩, markAt_cons] at ht
      have hst : s = t := by
        by_cases c : t.iv.start ≤ s.iv.start ∧ s.iv.start < t.iv.stop
        · rw [if_pos c] at hs
          simp only [Option.some.injEq, Prod.mk.injEq] at hs
          obtain ⟨⟨s1, s2⟩, sd⟩ := s
          obtain ⟨⟨t1, t2⟩, td⟩ := t
          simp only [Span.mk.injEq, Interval.mk.injEq] at hs c b2 a2 ⊢
          exact ⟨⟨by omega, by omega⟩, hs.1⟩
        · rw [if_neg c] at hs
          by_cases c2 : t.iv.stop ≤ s.iv.start
          · rw [if_neg (by omega), a4.mark_low (by omega)] at ht
            cases ht
          · rw [b4.mark_low (by omega)] at hs
            cases hs
      subst hst
      congr 1
      refine ih a4 b4 (fun p => ?_)
      by_cases c : p < s.iv.stop
      · rw [a4.mark_low c, b4.mark_low c]
      · have := h p
        rwa [markAt_cons, markAt_cons, if_neg (by omega), if_neg (by omega)] at this

theorem shiftUp_mark (k : Nat) (l : List (Span T)) (p : Nat) : markAt (shiftUp k l) p = if k ≤ p then markAt l (p - k) else none := by
  induction l with
  | nil => simp [shiftUp, markAt_nil]
  | cons s l ih =>
    simp only [shiftUp, List.map_cons] at ih ⊢
    rw [markAt_cons, markAt_cons, ih]
    show (if s.iv.start + k ≤ p ∧ p < s.iv.stop + k then some (s.data, p - (s.iv.start + k), s.iv.stop + k - p) else _) = _
    by_cases hk : k ≤ p
    · rw [if_pos hk, if_pos hk]
      by_cases hc : s.iv.start + k ≤ p ∧ p < s.iv.stop + k
      · rw [if_pos hc, if_pos (by omega), show p - (s.iv.start + k) = p - k - s.iv.start by omega, show s.iv.stop + k - p = s.iv.stop - (p - k) by omega]
      · rw [if_neg hc, if_neg (by omega)]
    · rw [if_neg hk, if_neg hk, if_neg (by omega)]

theorem shiftDown_mark {lo hi k : Nat} {l : List (Span T)} (h : SpansIn lo hi l) (hk : k ≤ lo) (p : Nat) :
    markAt (shiftDown k l) p = markAt l (p + k) := by
  induction l generalizing lo with
  | nil => simp [shiftDown, markAt_nil]
  | cons s l ih =>
    obtain ⟨h1, h2, h3, h4⟩ := h
    have ih := ih h4 (by omega)
    simp only [shiftDown, List.map_cons] at ih ⊢
    rw [markAt_cons, markAt_cons, ih]
    simp only
    by_cases c : s.iv.start ≤ p + k ∧ p + k < s.iv.stop
    · rw [if_pos c, if_pos (by omega), show p - (s.iv.start - k) = p + k - s.iv.start by omega, show s.iv.stop - k - p = s.iv.stop - (p + k) by omega]
    · rw [if_neg c, if_neg (by omega)]

/-- No span goes across the offset. -/
def Uncut (l : List (Span T)) (a : Nat) : Prop := ∀ s ∈ l, s.iv.stop ≤ a ∨ a ≤ s.iv.start

theorem clip_mark (off a b : Nat) (l : List (Span T)) (hab : a ≤ b) (ha : Uncut l a) (hb : Uncut l b) (p : Nat) :
    markAt (clip off a b l) p = if off ≤ p ∧ p < b - a + off then markAt l (p - off + a) else none := by
  induction l with
  | nil => simp [clip, markAt_nil]
  | cons s l ih =>
    have h1 := ha s (by simp)
    have h2 := hb s (by simp)
    rw [clip_cons, markAt_append, markAt_cons, ih (fun x hx => ha x (by simp [hx])) (fun x hx => hb x (by simp [hx]))]
    split
    · rw [markAt_cons, markAt_nil]
      simp only
      by_cases c : off ≤ p ∧ p < b - a + off
      · rw [if_pos c, if_pos c]
        by_cases c2 : s.iv.start ≤ p - off + a ∧ p - off + a < s.iv.stop
        · rw [if_pos (by omega), if_pos c2]
          simp only [Option.some_or, Option.some.injEq, Prod.mk.injEq, true_and]
          exact ⟨by omega, by omega⟩
        · rw [if_neg (by omega), if_neg c2]; rfl
      · rw [if_neg c, if_neg c, if_neg (by omega)]; rfl
    · rw [markAt_nil]
      repeat' split
      all_goals first | rfl | (exfalso; omega)

theorem marks_length (n : Nat) (l : List (Span T)) : (marks n l).length = n := by simp [marks]

theorem marks_get (n : Nat) (l : List (Span T)) (p : Nat) : (marks n l)[p]? = if p < n then some (markAt l p) else none := by
  simp only [marks, List.getElem?_map]
  by_cases h : p < n
  · simp [List.getElem?_range h, h]
  · simp [List.getElem?_eq_none, h]

theorem marks_append {n m : Nat} {a b : List (Span T)} (ha : SpansIn 0 n a) (hb : SpansIn n (n + m) b) :
    marks (n + m) (a ++ b) = marks n a ++ marks m (shiftDown n b) := by
  apply List.ext_getElem?
  intro p
  rw [List.getElem?_append, marks_length, marks_get, marks_get, marks_get, markAt_append]
  by_cases h : p < n
  · rw [if_pos (by omega), if_pos h, if_pos h, hb.mark_low h]; simp
  · rw [if_neg h]
    by_cases h2 : p < n + m
    · rw [if_pos h2, if_pos (by omega), ha.mark_high (by omega), shiftDown_mark hb (Nat.le_refl _)]
      rw [show p - n + n = p by omega]; simp
    · rw [if_neg h2, if_neg (by omega)]

/-- The marks of spans that are all there. -/
def WholeMarks (s : List (Option (T × Nat × Nat))) : Prop :=
  ∀ p d i j, s[p]? = some (some (d, i, j)) → 0 < j ∧ i ≤ p ∧ ∀ k, k < i + j → s[p - i + k]? = some (some (d, k, i + j - k))

theorem WholeMarks.nil : WholeMarks ([] : List (Option (T × Nat × Nat))) := by intro p d i j h; simp at h

theorem WholeMarks.append {a b : List (Option (T × Nat × Nat))} (ha : WholeMarks a) (hb : WholeMarks b) : WholeMarks (a ++ b) := by
  intro p d i j h
  by_cases c : p < a.length
  · rw [List.getElem?_append_left c] at h
    obtain ⟨h1, h2, h3⟩ := ha p d i j h
    refine ⟨h1, h2, fun k hk => ?_⟩
    have := h3 k hk
    have hl := (List.getElem?_eq_some_iff.1 this).1
    rw [List.getElem?_append_left hl, this]
  · rw [List.getElem?_append_right (by omega)] at h
    obtain ⟨h1, h2, h3⟩ := hb _ d i j h
    refine ⟨h1, by omega, fun k hk => ?_⟩
    rw [List.getElem?_append_right (by omega), show p - i + k - a.length = p - a.length - i + k by omega]
    exact h3 k hk

theorem WholeMarks.right {a b : List (Option (T × Nat × Nat))} (ha : WholeMarks a) (h : WholeMarks (a ++ b)) : WholeMarks b := by
  intro p d i j hp
  obtain ⟨h1, h2, h3⟩ := h (a.length + p) d i j (by rw [List.getElem?_append_right (by omega), show a.length + p - a.length = p by omega]; exact hp)
  have hi : i ≤ p := by
    apply Classical.byContradiction
    intro hc
    have := h3 (i - p - 1) (by omega)
    rw [show a.length + p - i + (i - p - 1) = a.length - 1 by omega, List.getElem?_append_left (by omega)] at this
    obtain ⟨-, -, g3⟩ := ha _ _ _ _ this
    have := g3 (i - p) (by omega)
    have := (List.getElem?_eq_some_iff.1 this).1
    omega
  refine ⟨h1, hi, fun k hk => ?_⟩
  have := h3 k hk
  rwa [List.getElem?_append_right (by omega), show a.length + p - i + k - a.length = p - i + k by omega] at this

theorem WholeMarks.left {a b : List (Option (T × Nat × Nat))} (hb : WholeMarks b) (h : WholeMarks (a ++ b)) : WholeMarks a := by
  intro p d i j hp
  have hl := (List.getElem?_eq_some_iff.1 hp).1
  obtain ⟨h1, h2, h3⟩ := h p d i j (by rw [List.getElem?_append_left hl]; exact hp)
  have hj : p + j ≤ a.length := by
    apply Classical.byContradiction
    intro hc
    have := h3 (i + (a.length - p)) (by omega)
    rw [show p - i + (i + (a.length - p)) = a.length by omega, List.getElem?_append_right (by omega), Nat.sub_self] at this
    obtain ⟨-, g2, -⟩ := hb _ _ _ _ this
    omega
  refine ⟨h1, h2, fun k hk => ?_⟩
  have := h3 k hk
  rwa [List.getElem?_append_left (by omega)] at this

theorem marks_whole {n : Nat} {l : List (Span T)} (h : SpansIn 0 n l) : WholeMarks (marks n l) := by
  intro p d i j hp
  rw [marks_get] at hp
  split at hp
  · simp only [Option.some.injEq] at hp
    obtain ⟨s, hs, rfl, h1, h2, h3⟩ := markAt_some hp
    refine ⟨h3, by omega, fun k hk => ?_⟩
    have hb := h.bounds s hs
    rw [marks_get, if_pos (by omega), h.mark_of hs (by omega) (by omega), show p - i + k - s.iv.start = k by omega, show s.iv.stop - (p - i + k) = i + j - k by omega]
  · cases hp

/-- Where the marks may be cut, no span goes across. -/
theorem uncut_of_whole {n e : Nat} {l : List (Span T)} (h : SpansIn 0 n l) (hw : WholeMarks ((marks n l).take e)) (he : e ≤ n) : Uncut l e := by
  intro s hs
  apply Classical.byContradiction
  intro hc
  have hb := h.bounds s hs
  have hm : ((marks n l).take e)[e - 1]? = some (some (s.data, e - 1 - s.iv.start, s.iv.stop - (e - 1))) := by
    rw [List.getElem?_take, if_pos (by omega), marks_get, if_pos (by omega), h.mark_of hs (by omega) (by omega)]
  obtain ⟨-, -, g⟩ := hw _ _ _ _ hm
  have := g (e - s.iv.start) (by omega)
  have := (List.getElem?_eq_some_iff.1 this).1
  rw [List.length_take] at this
  omega

theorem whole_of_uncut {n e : Nat} {l : List (Span T)} (h : SpansIn 0 n l) (he : e ≤ n) (hu : Uncut l e) :
    WholeMarks ((marks n l).take e) ∧ WholeMarks ((marks n l).drop e) := by
  have h1 : WholeMarks ((marks n l).take e) := by
    intro p d i j hp
    rw [List.getElem?_take] at hp
    split at hp
    · rename_i hpe
      rw [marks_get, if_pos (by omega)] at hp
      simp only [Option.some.injEq] at hp
      obtain ⟨s, hs, rfl, h1, h2, h3⟩ := markAt_some hp
      refine ⟨h3, by omega, fun k hk => ?_⟩
      have hb := h.bounds s hs
      have := hu s hs
      rw [List.getElem?_take, if_pos (by omega), marks_get, if_pos (by omega), h.mark_of hs (by omega) (by omega),
        show p - i + k - s.iv.start = k by omega, show s.iv.stop - (p - i + k) = i + j - k by omega]
    · cases hp
  exact ⟨h1, h1.right (by rw [List.take_append_drop]; exact marks_whole h)⟩

/-! ## Trees -/

/-- The marks of a leaf. -/
def SpansLeaf.marks (l : SpansLeaf T) : List (Option (T × Nat × Nat)) := Xi.marks l.len l.spans

theorem SpansLeaf.marks_length (l : SpansLeaf T) : l.marks.length = l.len := Xi.marks_length _ _

theorem SpansLeaf.splitOff_marks {l : SpansLeaf T} (h : SpansIn 0 l.len l.spans) {a b : SpansLeaf T} (hs : l.splitOff = some (a, some b)) :
    a.marks ++ b.marks = l.marks := by
  obtain ⟨len, spans⟩ := l
  simp only [splitOff] at hs
  split at hs
  · simp at hs
  · rename_i hle
    simp only [Spans.maxLeaf] at hle
    have hi : spans.length / 2 < spans.length := by omega
    obtain ⟨s, hs0⟩ : ∃ s, spans[spans.length / 2]? = some s := ⟨_, List.getElem?_eq_getElem hi⟩
    have hd : spans.drop (spans.length / 2) = s :: spans.drop (spans.length / 2 + 1) := by
      rw [List.drop_eq_getElem_cons hi]
      rw [List.getElem?_eq_getElem hi] at hs0
      simp only [Option.some.injEq] at hs0
      rw [hs0]
    have hcat : spans = spans.take (spans.length / 2) ++ s :: spans.drop (spans.length / 2 + 1) := by
      rw [← hd, List.take_append_drop]
    have h' : SpansIn 0 len spans := h
    rw [hcat] at h'
    obtain ⟨h1, -⟩ := h'.before
    have h2 := h'.fromStart
    have hb : s.iv.start ≤ len := by have := h2.2.1; have := h2.2.2.1; omega
    rw [← hd] at h2
    simp only [hs0, Option.bind_eq_bind, Option.bind_some, shiftBack_eq h2 (Nat.le_refl _)] at hs
    rw [if_neg (by omega)] at hs
    simp only [Option.pure_def, Option.some.injEq, Prod.mk.injEq] at hs
    obtain ⟨rfl, rfl⟩ := hs
    have h3 : SpansIn s.iv.start (s.iv.start + (len - s.iv.start)) (spans.drop (spans.length / 2)) := by
      rw [show s.iv.start + (len - s.iv.start) = len by omega]; exact h2
    simp only [SpansLeaf.marks]
    rw [← marks_append h1 h3, List.take_append_drop]
    congr 1; omega

theorem SpansLeaf.push_marks {l m : SpansLeaf T} {s e : Nat} (hl : SpansIn 0 l.len l.spans)
    (hse : s ≤ e) (he : e ≤ m.len) (h1 : Uncut m.spans s) (h2 : Uncut m.spans e) :
    marks ⟨l.len + (e - s), l.spans ++ clip l.len s e m.spans⟩ = l.marks ++ (m.marks.take e).drop s := by
  simp only [marks]
  apply List.ext_getElem?
  intro p
  rw [List.getElem?_append, Xi.marks_length, marks_get, marks_get, markAt_append, List.getElem?_drop, List.getElem?_take, marks_get,
    clip_mark _ _ _ _ hse h1 h2]
  by_cases h : p < l.len
  · rw [if_pos (by omega), if_pos h, if_pos h, if_neg (by omega)]; simp
  · rw [hl.mark_high (by omega), if_neg h]
    by_cases h2 : p < l.len + (e - s)
    · rw [if_pos h2, if_pos (by omega), if_pos (by omega), if_pos (by omega), show p - l.len + s = s + (p - l.len) by omega]; simp
    · rw [if_neg h2, if_neg (by omega)]

theorem uncut_zero {l : List (Span T)} : Uncut l 0 := fun _ _ => .inr (Nat.zero_le _)

theorem uncut_end {lo n : Nat} {l : List (Span T)} (h : SpansIn lo n l) : Uncut l n := fun s hs => .inl (h.bounds s hs).2.2

/-- Leaves, of which the spans count. -/
abbrev markSpec (T : Type) : LeafSpec (SpansLeaf T) SpansInfo (Option (T × Nat × Nat)) where
  content := SpansLeaf.marks
  ok := SpansLeaf.Ok
  valid := WholeMarks
  valid_nil := WholeMarks.nil
  valid_append := WholeMarks.append
  valid_right := WholeMarks.right
  valid_left := WholeMarks.left
  valid_content h := marks_whole h.within
  len_eq _ := (SpansLeaf.marks_length _).symm
  pos {l} h hs := by
    have := SpansLeaf.cells_pos h (by simpa [TreeLeaf.isOkChild] using hs)
    rw [SpansLeaf.cells_length] at this
    rw [SpansLeaf.marks_length]
    exact this
  ok_default := ⟨trivial, by simp [TreeLeaf.default]⟩
  content_default := rfl
  push_whole := by
    intro l m hl hm hn
    obtain ⟨h1, h2, -⟩ := SpansLeaf.push_eq hl.within hm.within (Nat.zero_le m.len) (Nat.le_refl _)
    have h3 := SpansLeaf.push_marks (m := m) hl.within (Nat.zero_le m.len) (Nat.le_refl _) uncut_zero (uncut_end hm.within)
    have hcl := clip_whole (off := l.len) hm.within
    have hlen : (l.spans ++ clip l.len 0 m.len m.spans).length = l.spans.length + m.spans.length := by simp [hcl, shiftUp]
    have hsl := hl.size
    have hsm := hm.size
    rw [List.take_of_length_le (by rw [SpansLeaf.marks_length]; omega), List.drop_zero] at h3
    simp only [TreeLeaf.isOkChild, Spans.minLeaf, ge_iff_le, decide_eq_true_eq] at hn ⊢
    rcases SpansLeaf.splitOff_spec (l := ⟨l.len + (m.len - 0), l.spans ++ clip l.len 0 m.len m.spans⟩) h2 (by simp only [hlen]; omega) with ⟨a, b⟩ | ⟨a, x, y, b, c, d, e, f, g⟩
    · exact .inl ⟨_, h1.trans b, ⟨h2, a⟩, h3, fun h => by simp only [hlen]; omega⟩
    · exact .inr ⟨x, y, h1.trans b, c, d, (SpansLeaf.splitOff_marks h2 b).trans h3, f, g⟩
  push_slice := by
    intro l s e hl hse he w1 w2
    rw [SpansLeaf.marks_length] at he
    obtain ⟨h1, h2, -⟩ := SpansLeaf.push_eq (l := ⟨0, []⟩) trivial hl.within hse he
    have h3 := SpansLeaf.push_marks (l := ⟨0, []⟩) (m := l) trivial hse he (uncut_of_whole hl.within w1 (by omega)) (uncut_of_whole hl.within w2 he)
    have hlen := clip_length 0 s e l.spans
    have := hl.size
    rcases SpansLeaf.splitOff_spec (l := ⟨0 + (e - s), [] ++ clip 0 s e l.spans⟩) h2 (by simp; omega) with ⟨a, b⟩ | ⟨a, _⟩
    · exact ⟨_, h1.trans b, ⟨h2, a⟩, h3.trans rfl⟩
    · simp at a; omega

/-- The marks of a tree. -/
def SpansTree.marks (n : SpansTree T) : List (Option (T × Nat × Nat)) := @Node.text _ _ _ _ (markSpec T) n

theorem marked_wf {h : Nat} (n : SpansTree T) : @Node.WF _ _ _ _ (markSpec T) h n ↔ n.WF h := by
  induction h generalizing n with
  | zero => cases n <;> exact Iff.rfl
  | succ h ih =>
    cases n with
    | leaf _ _ _ => exact Iff.rfl
    | internal h' len info cs =>
      have key : (∀ c ∈ cs, @Node.WF _ _ _ _ (markSpec T) h c ∧ c.isOkChild = true) ↔ (∀ c ∈ cs, Node.WF h c ∧ c.isOkChild = true) := by
        constructor
        · intro k c hc; exact ⟨(ih c).1 (k c hc).1, (k c hc).2⟩
        · intro k c hc; exact ⟨(ih c).2 (k c hc).1, (k c hc).2⟩
      constructor
      · rintro ⟨a1, a2, a3, a4, a5⟩
        exact ⟨a1, a2, a3, key.1 a4, a5⟩
      · rintro ⟨a1, a2, a3, a4, a5⟩
        exact ⟨a1, a2, a3, key.2 a4, a5⟩

theorem marked_balanced {n : SpansTree T} : @Node.Balanced _ _ _ _ (markSpec T) n ↔ n.Balanced :=
  ⟨fun ⟨h, w⟩ => ⟨h, (marked_wf n).1 w⟩, fun ⟨h, w⟩ => ⟨h, (marked_wf n).2 w⟩⟩

theorem flatMap_cells_length (ls : List (SpansLeaf T)) : (ls.flatMap SpansLeaf.cells).length = (ls.flatMap SpansLeaf.marks).length := by
  induction ls with
  | nil => rfl
  | cons l ls ih => simp [ih, SpansLeaf.cells_length, SpansLeaf.marks_length]

theorem spansOf_mark {ls : List (SpansLeaf T)} (h : ∀ l ∈ ls, l.Ok) (off p : Nat) :
    (ls.flatMap SpansLeaf.marks)[p]? = if p < (ls.flatMap SpansLeaf.marks).length then some (markAt (spansOf off ls) (off + p)) else none := by
  induction ls generalizing off p with
  | nil => simp
  | cons l ls ih =>
    have ho : ∀ l ∈ ls, l.Ok := fun x hx => h x (by simp [hx])
    have ih := ih ho (off + l.len) (p - l.len)
    have h1 := shiftUp_in off (h l (by simp)).within
    have h2 := spansOf_in ho (off + l.len)
    rw [flatMap_cells_length] at h2
    rw [List.flatMap_cons, List.getElem?_append, SpansLeaf.marks_length, List.length_append, SpansLeaf.marks_length, spansOf, markAt_append]
    by_cases hp : p < l.len
    · rw [if_pos hp, if_pos (by omega), SpansLeaf.marks, marks_get, if_pos hp, shiftUp_mark, if_pos (by omega), h2.mark_low (by omega)]
      simp
    · rw [if_neg hp, ih, h1.mark_high (by omega)]
      by_cases h3 : p < l.len + (ls.flatMap SpansLeaf.marks).length
      · rw [if_pos (by omega), if_pos h3, show off + l.len + (p - l.len) = off + p by omega]; simp
      · rw [if_neg (by omega), if_neg h3]

theorem spansOf_marks {ls : List (SpansLeaf T)} (h : ∀ l ∈ ls, l.Ok) :
    Xi.marks (ls.flatMap SpansLeaf.marks).length (spansOf 0 ls) = ls.flatMap SpansLeaf.marks := by
  apply List.ext_getElem?
  intro p
  rw [marks_get, spansOf_mark h 0 p, Nat.zero_add]


/-- `iter` gives the spans that the marks tell. -/
theorem SpansTree.iter_marks {n : SpansTree T} (hb : n.Balanced) {spans : List (Span T)} (hi : n.iter = some spans) :
    SpansIn 0 n.text.length spans ∧ n.marks = Xi.marks n.text.length spans := by
  have hok : ∀ l ∈ n.leaves, l.Ok := by
    obtain ⟨h, hw⟩ := hb
    exact leaf_ok hw
  rw [SpansTree.iter_eq hb, Option.some.injEq] at hi
  subst hi
  refine ⟨?_, ?_⟩
  · have := spansOf_in hok 0
    rwa [Nat.zero_add] at this
  · have h1 := spansOf_marks hok
    rw [← flatMap_cells_length] at h1
    exact h1.symm

/-- Which spans there are is told by the marks. -/
theorem SpansTree.iter_of_marks {n : SpansTree T} (hb : n.Balanced) {len : Nat} {spans : List (Span T)} (hs : SpansIn 0 len spans) (hm : n.marks = Xi.marks len spans) :
    n.iter = some spans := by
  obtain ⟨l, h1, h2, -⟩ := SpansTree.iter_spec hb
  obtain ⟨-, h3⟩ := SpansTree.iter_marks hb h1
  rw [h3] at hm
  have hlen : n.text.length = len := by
    have := congrArg List.length hm
    rwa [Xi.marks_length, Xi.marks_length] at this
  rw [hlen] at hm h2
  rw [h1, marks_unique h2 hs]
  intro p
  by_cases c : p < len
  · have := congrArg (fun x => x[p]?) hm
    simpa only [marks_get, if_pos c, Option.some.injEq] using this
  · rw [h2.mark_high (by omega), hs.mark_high (by omega)]

section

attribute [local instance] markSpec

/-- What has been added to a builder, span by span. -/
structure SpansBuilder.Keeps (sb : SpansBuilder T) (total : Nat) (spans : List (Span T)) : Prop where
  tot : sb.totalLen = total
  len_le : sb.len ≤ total
  part : ∃ pre, SpansIn 0 sb.len pre ∧ SpansIn sb.len total (shiftUp sb.len sb.leaf.spans) ∧
    spans = pre ++ shiftUp sb.len sb.leaf.spans ∧ sb.b.Holds (Xi.marks sb.len pre)
  size : sb.leaf.spans.length ≤ 64
  fresh : sb.leaf.spans = [] → sb.len = 0

theorem SpansBuilder.keeps_new (n : Nat) : (SpansBuilder.new n : SpansBuilder T).Keeps n [] :=
  ⟨rfl, Nat.zero_le _, ⟨[], trivial, trivial, rfl, TreeBuilder.holds_new⟩, by simp [SpansBuilder.new], fun _ => rfl⟩

theorem SpansBuilder.addSpan_keeps {sb : SpansBuilder T} {n : Nat} {spans : List (Span T)} {iv : Interval} {data : T}
    (h : sb.Keeps n spans) (hs : SpansIn 0 n (spans ++ [⟨iv, data⟩])) :
    ∃ sb', sb.addSpan iv data = some sb' ∧ sb'.Keeps n (spans ++ [⟨iv, data⟩]) := by
  obtain ⟨h1, -⟩ := hs.before
  have h2 := hs.fromStart
  obtain ⟨pre, p1, p2, rfl, p4⟩ := h.part
  have h1 : SpansIn 0 iv.start (pre ++ shiftUp sb.len sb.leaf.spans) := h1
  have h2 : SpansIn iv.start n [⟨iv, data⟩] := h2
  have hne : iv.start < iv.stop := h2.2.1
  have hn : iv.stop ≤ n := h2.2.2.1
  have hlen : sb.len ≤ iv.start := by
    cases hl : sb.leaf.spans with
    | nil => rw [h.fresh hl]; omega
    | cons x l =>
      have b1 := p2.bounds ⟨x.iv.translate sb.len, x.data⟩ (by simp [shiftUp, hl])
      have b2 := h1.bounds ⟨x.iv.translate sb.len, x.data⟩ (by simp [shiftUp, hl])
      simp only at b1 b2
      omega
  have hshift : ∀ k, k ≤ iv.start → shiftUp k [⟨⟨iv.start - k, iv.stop - k⟩, data⟩] = [(⟨iv, data⟩ : Span T)] := by
    intro k hk
    simp only [shiftUp, List.map_cons, List.map_nil, Interval.translate, List.cons.injEq, and_true]
    rw [show iv.start - k + k = iv.start by omega, show iv.stop - k + k = iv.stop by omega]
  by_cases hfull : sb.leaf.spans.length = 64
  · have hin : SpansIn sb.len iv.start (shiftUp sb.len sb.leaf.spans) := p2.both h1.right
    have hleaf : SpansLeaf.Ok ⟨iv.start - sb.len, sb.leaf.spans⟩ := by
      refine ⟨?_, h.size⟩
      have := shiftDown_in hin (Nat.le_refl _)
      rwa [Nat.sub_self, shiftDown_shiftUp] at this
    obtain ⟨tb, e1, e2⟩ := TreeBuilder.push_spec p4 (Node.wf_fromLeaf (I := SpansInfo) (show LeafSpec.ok (_ : SpansLeaf T) from hleaf))
    have ht : Xi.marks sb.len pre ++ (Node.fromLeaf (L := SpansLeaf T) (I := SpansInfo) ⟨iv.start - sb.len, sb.leaf.spans⟩).text =
        Xi.marks iv.start (pre ++ shiftUp sb.len sb.leaf.spans) := by
      rw [Node.text_fromLeaf]
      have hin' : SpansIn sb.len (sb.len + (iv.start - sb.len)) (shiftUp sb.len sb.leaf.spans) := by
        rw [show sb.len + (iv.start - sb.len) = iv.start by omega]; exact hin
      have := marks_append p1 hin'
      rw [show sb.len + (iv.start - sb.len) = iv.start by omega, shiftDown_shiftUp] at this
      rw [this]; rfl
    rw [ht] at e2
    refine ⟨⟨tb, ⟨0, [⟨⟨iv.start - iv.start, iv.stop - iv.start⟩, data⟩]⟩, iv.start, sb.totalLen⟩, ?_, ⟨h.tot, by simp only; omega, ?_, by simp, by simp⟩⟩
    · simp only [addSpan, makeRoom, Spans.maxLeaf]
      rw [if_pos hfull, if_neg (by omega)]
      simp only [e1, Option.bind_eq_bind, Option.bind_some, Option.pure_def, Interval.translateNeg]
      rw [if_pos (by omega)]
      rfl
    · refine ⟨_, h1, ?_, ?_, e2⟩
      · simp only [hshift iv.start (Nat.le_refl _)]; exact h2
      · simp only [hshift iv.start (Nat.le_refl _)]
  · have hsz := h.size
    refine ⟨⟨sb.b, ⟨sb.leaf.len, sb.leaf.spans ++ [⟨⟨iv.start - sb.len, iv.stop - sb.len⟩, data⟩]⟩, sb.len, sb.totalLen⟩, ?_, ⟨h.tot, h.len_le, ?_, by simp; omega, by simp⟩⟩
    · simp only [addSpan, makeRoom, Spans.maxLeaf]
      rw [if_neg hfull]
      simp only [Option.bind_eq_bind, Option.bind_some, Option.pure_def, Interval.translateNeg]
      rw [if_pos (by omega)]
      rfl
    · refine ⟨pre, p1, ?_, ?_, p4⟩
      · simp only [shiftUp_append, hshift sb.len hlen]
        rw [List.append_assoc] at hs
        exact (p2.both h1.right).append h2 hlen (by omega)
      · simp only [shiftUp_append, hshift sb.len hlen, List.append_assoc]

theorem SpansBuilder.build_keeps {sb : SpansBuilder T} {n : Nat} {spans : List (Span T)} (h : sb.Keeps n spans) :
    ∃ t, sb.build = some t ∧ t.marks = Xi.marks n spans ∧ t.Balanced := by
  obtain ⟨pre, p1, p2, rfl, p4⟩ := h.part
  have hl := h.len_le
  have hleaf : SpansLeaf.Ok ⟨n - sb.len, sb.leaf.spans⟩ := by
    refine ⟨?_, h.size⟩
    have := shiftDown_in p2 (Nat.le_refl _)
    rwa [Nat.sub_self, shiftDown_shiftUp] at this
  obtain ⟨tb, e1, e2⟩ := TreeBuilder.push_spec p4 (Node.wf_fromLeaf (I := SpansInfo) (show LeafSpec.ok (_ : SpansLeaf T) from hleaf))
  obtain ⟨m, e3, e4, e5⟩ := TreeBuilder.build_spec e2
  refine ⟨m, ?_, ?_, e5⟩
  · simp only [build, h.tot]
    rw [if_neg (by omega)]
    simp [e1, e3]
  · show Node.text m = _
    rw [e4, Node.text_fromLeaf]
    have hin' : SpansIn sb.len (sb.len + (n - sb.len)) (shiftUp sb.len sb.leaf.spans) := by
      rw [show sb.len + (n - sb.len) = n by omega]; exact p2
    have := marks_append p1 hin'
    rw [show sb.len + (n - sb.len) = n by omega, shiftDown_shiftUp] at this
    rw [this]; rfl

end

/-! ## What the operations do to the spans -/

theorem SpansTree.addAll_keeps (spans : List (Span T)) :
    ∀ {sb : SpansBuilder T} {n lo : Nat} {out : List (Span T)}, sb.Keeps n out → SpansIn 0 lo out → SpansIn lo n spans →
      ∃ sb', spans.foldlM (fun sb s => sb.addSpan s.iv s.data) sb = some sb' ∧ sb'.Keeps n (out ++ spans) := by
  induction spans with
  | nil => intro sb n lo out h _ _; exact ⟨sb, rfl, by simpa using h⟩
  | cons s rest ih =>
    intro sb n lo out h ho hr
    obtain ⟨h1, h2, h3, h4⟩ := hr
    have hin : SpansIn 0 s.iv.stop (out ++ [s]) := ho.append ⟨h1, h2, Nat.le_refl _, trivial⟩ (Nat.zero_le _) (by omega)
    obtain ⟨sb1, e1, a1⟩ := SpansBuilder.addSpan_keeps (iv := s.iv) (data := s.data) h (hin.mono (Nat.le_refl _) h3)
    obtain ⟨sb2, e2, a3⟩ := ih a1 hin h4
    exact ⟨sb2, by simp [e1, e2], by simpa using a3⟩

/-- A tree built from spans has these spans. -/
theorem SpansTree.build_exact {n : Nat} {spans : List (Span T)} (h : SpansIn 0 n spans) :
    ∃ sb t, spans.foldlM (fun sb s => sb.addSpan s.iv s.data) (SpansBuilder.new n) = some sb ∧ sb.build = some t ∧ t.Balanced ∧ t.text.length = n ∧ t.iter = some spans := by
  obtain ⟨sb, e1, a⟩ := addAll_keeps spans (SpansBuilder.keeps_new n) trivial h
  obtain ⟨t, e2, m, w⟩ := SpansBuilder.build_keeps a
  have w := marked_balanced.1 w
  rw [List.nil_append] at m
  have hi := iter_of_marks w h m
  refine ⟨sb, t, e1, e2, w, ?_, hi⟩
  have := (iter_marks w hi).2
  rw [m] at this
  have := congrArg List.length this
  rwa [Xi.marks_length, Xi.marks_length, eq_comm] at this

theorem marks_len (n : SpansTree T) : n.marks.length = n.text.length := (flatMap_cells_length n.leaves).symm

theorem take_marks {n k : Nat} {l : List (Span T)} (h : SpansIn 0 n l) (hk : k ≤ n) (hu : Uncut l k) :
    SpansIn 0 k (l.filter (fun s => s.iv.stop ≤ k)) ∧ (Xi.marks n l).take k = Xi.marks k (l.filter (fun s => s.iv.stop ≤ k)) := by
  have key : ∀ (l : List (Span T)) (lo : Nat), SpansIn lo n l → Uncut l k → SpansIn lo k (l.filter (fun s => s.iv.stop ≤ k)) ∧
      ∀ p, p < k → markAt (l.filter (fun s => s.iv.stop ≤ k)) p = markAt l p := by
    intro l
    induction l with
    | nil => intro lo _ _; exact ⟨trivial, fun _ _ => rfl⟩
    | cons s l ih =>
      intro lo h hu
      obtain ⟨h1, h2, h3, h4⟩ := h
      obtain ⟨i1, i2⟩ := ih _ h4 (fun x hx => hu x (by simp [hx]))
      have := hu s (by simp)
      by_cases c : s.iv.stop ≤ k
      · rw [List.filter_cons_of_pos (by simpa using c)]
        refine ⟨⟨h1, h2, c, i1⟩, fun p hp => ?_⟩
        rw [markAt_cons, markAt_cons, i2 p hp]
      · rw [List.filter_cons_of_neg (by simpa using c)]
        refine ⟨i1.mono (by omega) (Nat.le_refl _), fun p hp => ?_⟩
        rw [markAt_cons, if_neg (by omega), i2 p hp]
  obtain ⟨k1, k2⟩ := key l 0 h hu
  refine ⟨k1, ?_⟩
  apply List.ext_getElem?
  intro p
  rw [List.getElem?_take, marks_get, marks_get]
  by_cases c : p < k
  · rw [if_pos c, if_pos (by omega), if_pos c, k2 p c]
  · rw [if_neg c, if_neg c]

theorem drop_marks {n k : Nat} {l : List (Span T)} (h : SpansIn 0 n l) (hk : k ≤ n) (hu : Uncut l k) :
    SpansIn k n (l.filter (fun s => k ≤ s.iv.start)) ∧ (Xi.marks n l).drop k = Xi.marks (n - k) (shiftDown k (l.filter (fun s => k ≤ s.iv.start))) := by
  have key : ∀ (l : List (Span T)) (lo : Nat), SpansIn lo n l → Uncut l k → SpansIn (max lo k) n (l.filter (fun s => k ≤ s.iv.start)) ∧
      ∀ p, k ≤ p → markAt (l.filter (fun s => k ≤ s.iv.start)) p = markAt l p := by
    intro l
    induction l with
    | nil => intro lo _ _; exact ⟨trivial, fun _ _ => rfl⟩
    | cons s l ih =>
      intro lo h hu
      obtain ⟨h1, h2, h3, h4⟩ := h
      obtain ⟨i1, i2⟩ := ih _ h4 (fun x hx => hu x (by simp [hx]))
      have := hu s (by simp)
      by_cases c : k ≤ s.iv.start
      · rw [List.filter_cons_of_pos (by simpa using c)]
        refine ⟨⟨by omega, h2, h3, i1.mono (by omega) (Nat.le_refl _)⟩, fun p hp => ?_⟩
        rw [markAt_cons, markAt_cons, i2 p hp]
      · rw [List.filter_cons_of_neg (by simpa using c)]
        refine ⟨i1.mono (by omega) (Nat.le_refl _), fun p hp => ?_⟩
        rw [markAt_cons, if_neg (by omega), i2 p hp]
  obtain ⟨k1, k2⟩ := key l 0 h hu
  have k1 := k1.mono (lo' := k) (by omega) (Nat.le_refl n)
  refine ⟨k1, ?_⟩
  apply List.ext_getElem?
  intro p
  rw [List.getElem?_drop, marks_get, marks_get, shiftDown_mark k1 (Nat.le_refl _)]
  by_cases c : k + p < n
  · rw [if_pos c, if_pos (by omega), k2 _ (by omega), show p + k = k + p by omega]
  · rw [if_neg c, if_neg (by omega)]

theorem marks_concat {n m : Nat} {a b : List (Span T)} (ha : SpansIn 0 n a) (hb : SpansIn 0 m b) :
    SpansIn 0 (n + m) (a ++ shiftUp n b) ∧ Xi.marks n a ++ Xi.marks m b = Xi.marks (n + m) (a ++ shiftUp n b) := by
  have h := shiftUp_in n hb
  rw [Nat.zero_add, Nat.add_comm m n] at h
  refine ⟨ha.append h (Nat.zero_le _) (by omega), ?_⟩
  rw [marks_append ha h, shiftDown_shiftUp]

theorem edit_clamp (n new : SpansTree T) {iv : Interval} (hiv : iv.start ≤ iv.stop) :
    n.edit iv new = n.edit ⟨min iv.start n.len, min iv.stop n.len⟩ new := by
  have e1 : n.interval.pre iv = n.interval.pre ⟨min iv.start n.len, min iv.stop n.len⟩ := by
    simp only [Node.interval, Interval.pre, Interval.mk.injEq]; omega
  have e2 : ∀ b : TreeBuilder (SpansLeaf T) SpansInfo, n.pushSubseq b (n.interval.suf iv) = n.pushSubseq b (n.interval.suf ⟨min iv.start n.len, min iv.stop n.len⟩) := by
    intro b
    by_cases c : iv.stop ≤ n.len
    · congr 1
      simp only [Node.interval, Interval.suf, Interval.mk.injEq]; omega
    · have h1 : (n.interval.suf iv).isEmpty = true := by
        refine decide_eq_true ?_
        show max n.len iv.stop ≤ max 0 iv.stop
        omega
      have h2 : (n.interval.suf ⟨min iv.start n.len, min iv.stop n.len⟩).isEmpty = true := by
        refine decide_eq_true ?_
        show max n.len (min iv.stop n.len) ≤ max 0 (min iv.stop n.len)
        omega
      have h3 : ∀ j : Interval, j.isEmpty = true → n.pushSubseq b j = some b := by
        intro j hj
        cases n <;> simp [Node.pushSubseq, hj]
      rw [h3 _ h1, h3 _ h2]
  simp only [Node.edit, e1, e2]

/-- `edit` keeps the spans before and after the interval and puts the new ones between them; the interval ends at the end of the tree at the latest. -/
theorem SpansTree.edit_exact {n new : SpansTree T} {l m : List (Span T)} (hn : n.Balanced) (hnew : new.Balanced) (hl : n.iter = some l) (hm : new.iter = some m)
    {iv : Interval} (hiv : iv.start ≤ iv.stop) {a b : Nat} (ha : a = min iv.start n.text.length) (hb : b = min iv.stop n.text.length) (ua : Uncut l a) (ub : Uncut l b) :
    ∃ r, n.edit iv new = some r ∧ r.Balanced ∧ r.text = n.text.take a ++ new.text ++ n.text.drop b ∧
      SpansTree.iter r = some (l.filter (fun s => s.iv.stop ≤ a) ++ shiftUp a m ++ shiftUp (a + new.text.length) (shiftDown b (l.filter (fun s => b ≤ s.iv.start)))) := by
  obtain ⟨l1, l2⟩ := iter_marks hn hl
  obtain ⟨m1, m2⟩ := iter_marks hnew hm
  have hlen : n.len = n.text.length := (by obtain ⟨h, w⟩ := hn; exact w.len_eq)
  have hcut : ∀ k, k ≤ n.text.length → Uncut l k → @Cut (SpansLeaf T) SpansInfo _ _ (markSpec T) n.marks k := by
    intro k hk hu
    refine ⟨by rw [marks_len]; exact hk, ?_⟩
    rw [l2]
    exact whole_of_uncut l1 hk hu
  obtain ⟨r, e1, t1, w1⟩ := @Node.edit_spec _ _ _ _ (markSpec T) n new ⟨a, b⟩ (marked_balanced.2 hn) (marked_balanced.2 hnew)
    (hcut a (by omega) ua) (hcut b (by omega) ub)
  obtain ⟨r', e2, t2, w2⟩ := Node.edit_spec (iv := ⟨a, b⟩) hn hnew (spans_cut (by show a ≤ _; omega)) (spans_cut (by show b ≤ _; omega))
  have : r' = r := by rw [e1] at e2; simpa using e2.symm
  subst this
  refine ⟨r', ?_, w2, t2, ?_⟩
  · rw [edit_clamp _ _ hiv, hlen, ← ha, ← hb]; exact e2
  · obtain ⟨p1, p2⟩ := take_marks l1 (k := a) (by omega) ua
    obtain ⟨q1, q2⟩ := drop_marks l1 (k := b) (by omega) ub
    have q3 := shiftDown_in q1 (Nat.le_refl _)
    rw [Nat.sub_self] at q3
    obtain ⟨r1, r2⟩ := marks_concat p1 m1
    obtain ⟨s1, s2⟩ := marks_concat r1 q3
    refine iter_of_marks w2 s1 ?_
    have t1 : SpansTree.marks r' = n.marks.take a ++ new.marks ++ n.marks.drop b := t1
    rw [t1, l2, m2, p2, q2, r2, s2]

end Xi
