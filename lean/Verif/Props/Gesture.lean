import Verif.View.Gesture
import Verif.Props.Movement

/-!
# C78: the selection of a view

What clicking, dragging, extending, splitting into lines and scrolling do.
-/

namespace Xi.Gesture

open Selection Word

/-! ## What it is about -/

/-- How the text is wrapped fits the text. -/
structure Fits (g : Graphemes) (ls : Wrapping) (r : Rope) : Prop where
  agree : Agree r ls.breaks
  unwrapped : ls.wraps = false → ∀ k, ¬ BreakAt ls.breaks.text k
  graphemes : g.Ok

/-- The region is in the text and its ends are between characters; its cursor is shown after the
line break, if it is at one. -/
structure RegionOk (r : Rope) (q : SelRegion) : Prop where
  start : CharBoundary r.text q.start
  stop : CharBoundary r.text q.stop
  down : q.upstream = false

/-- The invariant of a selection: it is not empty (view.rs:60), and its regions are sorted,
disjoint and in the text. -/
structure Valid (r : Rope) (s : Selection) : Prop where
  some : s ≠ []
  inv : Inv s
  ok : ∀ q ∈ s, RegionOk r q

/-- The drag state is about the text as it is. -/
structure DragOk (r : Rope) (d : DragState) : Prop where
  inv : Inv d.base
  ok : ∀ q ∈ d.base, RegionOk r q
  min : CharBoundary r.text d.min
  max : CharBoundary r.text d.max

/-- The invariant of a view. -/
structure Good (r : Rope) (v : View) : Prop where
  selection : Valid r v.selection
  drag : ∀ d, v.drag = some d → DragOk r d
  height : 0 < v.height

/-- `s` to `e` is the unit of text at `o`: nothing, a word, or a line with its newline. -/
def UnitAt (t : List UInt8) (o s e : Nat) : Granularity → Prop
  | .point => s = o ∧ e = o
  | .word => SelectStart t o s ∧ SelectEnd t o e
  | .line => ∃ n, OnLine (logicalStarts t) n s o ∧ e = ((logicalStarts t)[n + 1]?).getD t.length

/-- The lines on the screen. -/
def screenStarts (ls : Wrapping) (r : Rope) : List Nat := visualStarts r.text ls.breaks.text

/-- `n` is the line of `o` on the screen. -/
def LineOf (ls : Wrapping) (r : Rope) (o n : Nat) : Prop := ∃ s, OnLine (screenStarts ls r) n s o

/-! ## Selections -/

section

variable {g : Graphemes} {ls : Wrapping} {r : Rope} {v : View}

theorem Fits.lines (hf : Fits g ls r) : IsLines r ls.lines (screenStarts ls r) ∧ Clamps r ls.lines (screenStarts ls r) :=
  visual_isLines ls.wraps hf.agree hf.unwrapped

theorem Fits.text (hf : Fits g ls r) : r.Balanced := hf.agree.text

theorem before_irrefl {a b : SelRegion} (h1 : Before a b) (h2 : Before b a) : False := by
  have l1 := lo_le a
  have l2 := lo_le b
  have c1 := (caret_iff a)
  have h3 : a.hi = b.lo := Nat.le_antisymm h1.1 (by have := h2.1; omega)
  have h4 : a.lo = a.hi := by have := h2.1; have := h1.1; omega
  have := h1.2 (.inl (c1.2 h4))
  omega

/-- Adding a region after all the others. -/
theorem add_after {s : Selection} {x : SelRegion} (h : Inv (s ++ [x])) : s.addRegion x = some (s ++ [x]) := by
  have h' := h
  unfold Selection.Inv at h'
  rw [List.pairwise_append] at h'
  obtain ⟨hs, -, hb⟩ := h'
  obtain ⟨pre, mid, post, R, e1, e2, e3, e4, e5, e6, -⟩ := C32_add hs x
  have hmid : mid = [] := by
    cases mid with
    | nil => rfl
    | cons m mid =>
      have hm := (e6 m (by simp)).2
      have hb := hb m (by rw [e1]; simp) x (by simp)
      have := hb.1
      have l1 := lo_le m
      have l2 := lo_le x
      have := caret_iff m
      have := caret_iff x
      rcases hm with hm | hm
      · omega
      · have := hb.2 hm.1
        omega
  have hR := e4 hmid
  subst hmid hR
  have hpost : post = [] := by
    cases post with
    | nil => rfl
    | cons p post =>
      refine (before_irrefl (a := R) (b := p) ?_ (hb p (by rw [e1]; simp) R (by simp))).elim
      unfold Selection.Inv at e3
      rw [List.pairwise_append] at e3
      exact (List.pairwise_cons.1 e3.2.1).1 p (by simp)
  subst hpost
  rw [e2, e1]
  simp

theorem add_all : ∀ (l s : Selection), Inv (s ++ l) → l.foldlM Selection.addRegion s = some (s ++ l)
  | [], s, _ => by simp
  | x :: l, s, h => by
    have h1 : Inv (s ++ [x] ++ l) := by simpa using h
    have h2 : Inv (s ++ [x]) := (List.pairwise_append.1 h1).1
    simp only [List.foldlM_cons, add_after h2, Option.bind_eq_bind, Option.bind_some]
    rw [add_all l _ h1]
    simp

/-- What merging yields is shown downstream. -/
theorem mergeLoop_up : ∀ (l : List SelRegion) (x : SelRegion) (n : Nat), x.upstream = false → (mergeLoop l x n).1.upstream = false
  | [], x, n, h => by simpa [mergeLoop] using h
  | y :: l, x, n, h => by
    unfold mergeLoop
    split
    · refine mergeLoop_up l _ _ ?_
      unfold SelRegion.mergeWith
      simp only
      split <;> rfl
    · exact h

theorem mergeWith_up (x y : SelRegion) : (x.mergeWith y).upstream = false := by
  unfold SelRegion.mergeWith
  simp only
  split <;> rfl

theorem putRegion_up {s s' : Selection} {i j : Nat} {x : SelRegion} (h : s.putRegion i j x = some s') (hs : ∀ q ∈ s, q.upstream = false)
    (hx : x.upstream = false) : ∀ q ∈ s', q.upstream = false := by
  unfold putRegion at h
  split at h
  · simp only [Option.some.injEq] at h
    subst h
    intro q hq
    by_cases hi : i ≤ s.length
    · rw [List.mem_insertIdx hi] at hq
      rcases hq with rfl | hq
      · exact hx
      · exact hs q hq
    · rw [List.insertIdx_of_length_lt (by omega)] at hq
      exact hs q hq
  · have hset : ∀ q ∈ s.set i x, q.upstream = false := fun q hq => by
      rcases List.mem_or_eq_of_mem_set hq with h | rfl
      · exact hs q h
      · exact hx
    have key : ∀ {k n : Nat}, removeNAt (s.set i x) k n = some s' → ∀ q ∈ s', q ∈ s.set i x := by
      intro k n h q hq
      unfold removeNAt at h
      repeat' split at h
      all_goals simp only [Option.some.injEq, reduceCtorEq] at h
      all_goals subst h
      · exact List.mem_of_mem_eraseIdx hq
      · rcases List.mem_append.1 hq with h | h
        · exact List.mem_of_mem_take h
        · exact List.mem_of_mem_drop h
      · exact List.mem_of_mem_take hq
      · exact hq
    exact fun q hq => hset q (key h q hq)

theorem add_up {s s' : Selection} {x : SelRegion} (h : s.addRegion x = some s') (hs : ∀ q ∈ s, q.upstream = false) (hx : x.upstream = false) :
    ∀ q ∈ s', q.upstream = false := by
  unfold addRegion at h
  simp only at h
  split at h
  · simp only [Option.some.injEq] at h
    subst h
    intro q hq
    rcases List.mem_append.1 hq with h | h
    · exact hs q h
    · rw [List.mem_singleton.1 h]; exact hx
  · repeat' split at h
    · exact putRegion_up h hs (mergeLoop_up _ _ _ (mergeWith_up _ _))
    · exact putRegion_up h hs (mergeLoop_up _ _ _ hx)
    · exact putRegion_up h hs (mergeLoop_up _ _ _ hx)

/-- Adding a region keeps the invariant. -/
theorem add_ok {s : Selection} (hs : Inv s) (ho : ∀ q ∈ s, RegionOk r q) {x : SelRegion} (hx : RegionOk r x) :
    ∃ s', s.addRegion x = some s' ∧ Valid r s' ∧ (∀ k, Has s' k ↔ Has s k ∨ x.lo ≤ k ∧ k < x.hi) ∧ ∃ R ∈ s', Within x R := by
  obtain ⟨s', e1, e2⟩ := add_some hs x
  have hw := C32_add_within hs e1
  obtain ⟨R, hR, -⟩ := hw.1
  have hends := fold_add_ends (P := CharBoundary r.text) (ys := [x]) (s := s) (s' := s') hs
    (by simp [e1]) (by intro y hy; rw [List.mem_singleton.1 hy]; exact ⟨hx.start, hx.stop⟩) (fun y hy => ⟨(ho y hy).start, (ho y hy).stop⟩)
  refine ⟨s', e1, ⟨fun h => ?_, e2, fun q hq => ⟨(hends q hq).1, (hends q hq).2, ?_⟩⟩, C32_add_bytes hs e1, hw.1⟩
  · rw [h] at hR; cases hR
  · exact add_up e1 (fun q hq => (ho q hq).down) hx.down q hq

theorem Valid.single {q : SelRegion} (h : RegionOk r q) : Valid r [q] :=
  ⟨by simp, by simp [Selection.Inv], fun x hx => by rw [List.mem_singleton.1 hx]; exact h⟩

theorem add_nil (x : SelRegion) : Selection.addRegion [] x = some [x] := by
  have := add_after (s := []) (x := x) (by simp [Selection.Inv])
  simpa using this

/-! ## Setting the selection -/

theorem LineOf.exists (hf : Fits g ls r) (o : Nat) : ∃ n, LineOf ls r o n := by
  obtain ⟨n, s, h⟩ := hf.lines.1.onLine o
  exact ⟨n, s, h⟩

theorem LineOf.unique (hf : Fits g ls r) {o n m : Nat} (h : LineOf ls r o n) (h' : LineOf ls r o m) : n = m := by
  obtain ⟨s, h⟩ := h
  obtain ⟨s', h'⟩ := h'
  exact (onLine_unique hf.lines.1.sorted h h').1

theorem LineOf.line (hf : Fits g ls r) {o n : Nat} (ho : CharBoundary r.text o) (h : LineOf ls r o n) : ls.lines.lineOfOffset r o = some n := by
  obtain ⟨s, h⟩ := h
  exact hf.lines.1.lineOf ho h

theorem RegionOk.lo {q : SelRegion} (h : RegionOk r q) : CharBoundary r.text q.lo := ((lo_hi_ends q).2 ⟨h.start, h.stop⟩).1

theorem RegionOk.hi {q : SelRegion} (h : RegionOk r q) : CharBoundary r.text q.hi := ((lo_hi_ends q).2 ⟨h.start, h.stop⟩).2

/-- The lines from the start of the first to the end of the last region. -/
def SelLines (ls : Wrapping) (r : Rope) (s : Selection) (n m : Nat) : Prop :=
  (∃ q, s.head? = some q ∧ LineOf ls r q.lo n) ∧ ∃ q, s.getLast? = some q ∧ LineOf ls r q.hi m

theorem SelLines.exists (hf : Fits g ls r) {s : Selection} (hs : s ≠ []) : ∃ n m, SelLines ls r s n m := by
  cases h : s.head? with
  | none => simp at h; exact absurd h hs
  | some q =>
    cases h' : s.getLast? with
    | none => simp at h'; exact absurd h' hs
    | some q' =>
      obtain ⟨n, hn⟩ := LineOf.exists hf q.lo
      obtain ⟨m, hm⟩ := LineOf.exists hf q'.hi
      exact ⟨n, m, ⟨q, h, hn⟩, q', h', hm⟩

theorem mem_head {s : Selection} {q : SelRegion} (h : s.head? = some q) : q ∈ s := by
  cases s with
  | nil => cases h
  | cons x s => simp at h; subst h; simp

theorem mem_last {s : Selection} {q : SelRegion} (h : s.getLast? = some q) : q ∈ s := List.mem_of_getLast? h

theorem invalidate_eq (hf : Fits g ls r) (hs : ∀ q ∈ v.selection, RegionOk r q) {n m : Nat} (h : SelLines ls r v.selection n m) :
    v.invalidateSelection ls r = some { v with inval := v.inval ++ [(n, m + 1, View.invalidity v.selection)] } := by
  obtain ⟨⟨q, h1, h2⟩, q', h3, h4⟩ := h
  simp only [View.invalidateSelection, h1, h3, Option.bind_eq_bind, Option.bind_some, h2.line hf (hs q (mem_head h1)).lo,
    h4.line hf (hs q' (mem_last h3)).hi]
  rfl

/-- Setting the selection without scrolling. -/
theorem setRaw_eq (hf : Fits g ls r) (hv : Valid r v.selection) {sel : Selection} (hs : Valid r sel) : ∃ n m n' m', SelLines ls r v.selection n m ∧
    SelLines ls r sel n' m' ∧ v.setSelectionRaw ls r sel = some { v with
      selection := sel, inval := v.inval ++ [(n, m + 1, View.invalidity v.selection), (n', m' + 1, View.invalidity sel)] } := by
  obtain ⟨n, m, h1⟩ := SelLines.exists hf hv.some
  obtain ⟨n', m', h2⟩ := SelLines.exists hf hs.some
  refine ⟨n, m, n', m', h1, h2, ?_⟩
  simp only [View.setSelectionRaw, invalidate_eq hf hv.ok h1, Option.bind_eq_bind, Option.bind_some]
  rw [invalidate_eq hf (v := { v with selection := sel, inval := _ }) hs.ok h2]
  simp

/-- The line `n` is on the screen, which shows `first` and the following `height - 1` lines; the
screen does not move if it was, and no further than needed if it was not. -/
def ScrolledTo (before height n first : Nat) : Prop :=
  first ≤ n ∧ n < first + height ∧ (n < before → first = n) ∧ (before ≤ n → n < before + height → first = before) ∧
    (before + height ≤ n → first + height = n + 1)

theorem scroll_eq (hf : Fits g ls r) {q : SelRegion} (hq : v.selection.getLast? = some q) (ho : CharBoundary r.text q.stop) (hh : 0 < v.height) {n : Nat}
    (hn : LineOf ls r q.stop n) : ∃ first, ScrolledTo v.firstLine v.height n first ∧
      v.scrollToCursor ls r = some { v with firstLine := first, scrollTo := some q.stop } := by
  simp only [View.scrollToCursor, hq, hn.line hf ho, Option.bind_eq_bind, Option.bind_some, View.scrolled]
  unfold ScrolledTo
  repeat' split
  · exact ⟨n, by omega, rfl⟩
  · omega
  · exact ⟨n - (v.height - 1), by omega, rfl⟩
  · exact ⟨v.firstLine, by omega, rfl⟩

/-- What setting the selection to `sel` leaves. -/
structure IsSet (ls : Wrapping) (r : Rope) (v v' : View) (sel : Selection) : Prop where
  selection : v'.selection = sel
  drag : v'.drag = v.drag
  height : v'.height = v.height
  inval : ∃ n m n' m', SelLines ls r v.selection n m ∧ SelLines ls r sel n' m' ∧
    v'.inval = v.inval ++ [(n, m + 1, View.invalidity v.selection), (n', m' + 1, View.invalidity sel)]
  screen : ∃ q n, sel.getLast? = some q ∧ LineOf ls r q.stop n ∧ ScrolledTo v.firstLine v.height n v'.firstLine ∧ v'.scrollTo = some q.stop

theorem set_eq (hf : Fits g ls r) (hv : Good r v) {sel : Selection} (hs : Valid r sel) : ∃ v', v.setSelection ls r sel = some v' ∧ IsSet ls r v v' sel := by
  obtain ⟨n, m, n', m', i1, i2, e⟩ := setRaw_eq hf hv.selection hs
  cases h : sel.getLast? with
  | none => simp at h; exact absurd h hs.some
  | some q =>
    obtain ⟨k, hk⟩ := LineOf.exists hf q.stop
    obtain ⟨first, h1, h2⟩ := scroll_eq hf (v := { v with selection := sel, inval := v.inval ++ [(n, m + 1, View.invalidity v.selection), (n', m' + 1, View.invalidity sel)] })
      h (hs.ok q (mem_last h)).stop hv.height hk
    have h3 : v.setSelection ls r sel =
        View.scrollToCursor ls r { v with selection := sel, inval := v.inval ++ [(n, m + 1, View.invalidity v.selection), (n', m' + 1, View.invalidity sel)] } := by
      simp only [View.setSelection, e, Option.bind_eq_bind, Option.bind_some]
    rw [h2] at h3
    exact ⟨_, h3, rfl, rfl, rfl, ⟨n, m, n', m', i1, i2, rfl⟩, q, k, h, hk, h1, rfl⟩

theorem IsSet.good {v' : View} {sel : Selection} (hv : Good r v) (hs : Valid r sel) (h : IsSet ls r v v' sel) : Good r v' :=
  ⟨by rw [h.selection]; exact hs, fun d hd => hv.drag d (by rw [← h.drag]; exact hd), by rw [h.height]; exact hv.height⟩

/-! ## Units -/

theorem select_start_le (hr : r.Balanced) {p s : Nat} (hp : CharBoundary r.text p) (h : SelectStart r.text p s) : s ≤ p ∧ CharBoundary r.text s := by
  obtain ⟨A, B, ht, rfl⟩ := boundary_split hr hp
  have hu : ∃ cs, r.text = Find.enc cs := ⟨_, ht⟩
  by_cases h0 : (Find.enc A).length = 0
  · rw [h.1 h0]
    exact ⟨Nat.zero_le _, rope_boundary_zero hr⟩
  · by_cases h1 : (Find.enc A).length = r.text.length
    · have h2 := h.2.1 (by omega) h1
      exact ⟨Nat.le_of_lt h2.1, IsPrev.starts_boundary hu h2⟩
    · rcases List.eq_nil_or_concat A with rfl | ⟨A', a, rfl⟩
      · exact absurd rfl h0
      · cases B with
        | nil => rw [ht, List.append_nil] at h1; exact absurd rfl h1
        | cons b B =>
          obtain ⟨g1, g2, g3⟩ := h.2.2 A' a b B (by rw [ht]; simp) (by simp)
          by_cases c1 : Enters a b ∨ Blank a b
          · rw [g1 c1]; exact ⟨Nat.le_refl _, hp⟩
          · by_cases c2 : Leaves a b
            · exact ⟨Nat.le_of_lt (g2 c2).1, IsPrev.starts_boundary hu (g2 c2)⟩
            · have := g3 (fun h => c1 (.inl h)) (fun h => c1 (.inr h)) c2
              exact ⟨Nat.le_of_lt this.1, IsPrev.starts_boundary hu this⟩

theorem select_end_ge (hr : r.Balanced) {p e : Nat} (hp : CharBoundary r.text p) (h : SelectEnd r.text p e) : p ≤ e ∧ CharBoundary r.text e := by
  obtain ⟨A, B, ht, rfl⟩ := boundary_split hr hp
  have hu : ∃ cs, r.text = Find.enc cs := ⟨_, ht⟩
  by_cases h1 : (Find.enc A).length = r.text.length
  · rw [h.1 h1]
    exact ⟨Nat.le_refl _, hp⟩
  · have hle := boundary_le hp
    by_cases h0 : (Find.enc A).length = 0
    · have h2 := h.2.1 h0 (by omega)
      exact ⟨Nat.le_of_lt h2.1, IsNext.ends_boundary hu h2⟩
    · rcases List.eq_nil_or_concat A with rfl | ⟨A', a, rfl⟩
      · exact absurd rfl h0
      · cases B with
        | nil => rw [ht, List.append_nil] at h1; exact absurd rfl h1
        | cons b B =>
          obtain ⟨g1, g2, g3⟩ := h.2.2 A' a b B (by rw [ht]; simp) (by simp)
          by_cases c1 : Leaves a b ∨ Blank a b
          · rw [g1 c1]; exact ⟨Nat.le_refl _, hp⟩
          · by_cases c2 : Enters a b
            · exact ⟨Nat.le_of_lt (g2 c2).1, IsNext.ends_boundary hu (g2 c2)⟩
            · have := g3 c2 (fun h => c1 (.inr h)) (fun h => c1 (.inl h))
              exact ⟨Nat.le_of_lt this.1, IsNext.ends_boundary hu this⟩

theorem onLine_before {starts : List Nat} (hp : starts.Pairwise (· < ·)) {n s o e : Nat} (h : OnLine starts n s o) (he : e ∈ starts) (hse : s < e) : o < e := by
  obtain ⟨i, hi⟩ := List.getElem?_of_mem he
  have hni : n < i := by
    apply Classical.byContradiction
    intro hn
    rcases Nat.lt_or_ge i n with h' | h'
    · have := get_lt hp h' hi h.start
      omega
    · have : i = n := by omega
      subst this
      rw [h.start] at hi
      injection hi
      omega
  rcases Nat.lt_or_ge (n + 1) i with h' | h'
  · have hlt : n + 1 < starts.length := Nat.lt_trans h' (List.getElem?_eq_some_iff.1 hi).1
    have hx := List.getElem?_eq_getElem hlt
    have h1 := h.lt _ hx
    have h2 := get_lt hp h' hx hi
    omega
  · rw [show i = n + 1 by omega] at hi
    exact h.lt e hi

theorem logical_mem {k : Nat} (b : List Bool) (h : k ∈ logicalStarts r.text) : k ∈ visualStarts r.text b := by
  rw [logicalStarts_eq, mem_visualStarts] at h
  rw [mem_visualStarts]
  refine ⟨h.1, ?_⟩
  rcases h.2 with h | h | h
  · exact .inl h
  · exact .inr (.inl h)
  · exact absurd h (no_breaks k)

/-- The logical line of a line on the screen. -/
theorem logicalLineRange_spec (hf : Fits g ls r) {o n : Nat} (hn : LineOf ls r o n) :
    ∃ m s, OnLine (logicalStarts r.text) m s o ∧ ls.logicalLineRange r n = some (s, ((logicalStarts r.text)[m + 1]?).getD r.text.length) := by
  obtain ⟨s, hs⟩ := hn
  have hr := hf.text
  have ha := hf.agree
  obtain ⟨m, e1, e2, e3, e4⟩ := MergedBreaks.new_spec ha
  obtain ⟨m', o', g1, g2, g3, -⟩ := MergedBreaks.offsetOfLine_spec ha e2 (by rw [e3, e4, lineIndex_zero]) (.inl e4) n
  have h4 := visualStarts_get ha.apart hs.start
  have h5 : n < (visualStarts r.text ls.breaks.text).length := (List.getElem?_eq_some_iff.1 hs.start).1
  have h6 := visualStarts_length ha.apart
  have ho' : o' = s := C53_line_unique ha (g3 (by omega)) h4
  subst ho'
  have hl := logical_isLines hr
  obtain ⟨k, L, hk⟩ := hl.onLine o'
  have hlin := hl.lineOf (hf.lines.1.chars _ (List.mem_of_getElem? hs.start)) hk
  have hk' : OnLine (logicalStarts r.text) k L o := by
    refine ⟨hk.start, Nat.le_trans hk.le hs.le, fun e he => ?_⟩
    exact onLine_before hf.lines.1.sorted hs (logical_mem _ (List.mem_of_getElem? he)) (hk.lt e he)
  refine ⟨k, L, hk', ?_⟩
  have i1 : r.lineOfOffset o' = some k := hlin
  have i2 : r.offsetOfLine k = some L := hl.offset k L hk.start
  have i3 : r.offsetOfLine (k + 1) = some (((logicalStarts r.text)[k + 1]?).getD r.text.length) :=
    hl.nextStart (List.getElem?_eq_some_iff.1 hk.start).1
  simp only [Wrapping.logicalLineRange, e1, g1, i1, i2, i3, Option.bind_eq_bind, Option.bind_some]
  rfl

/-- **C78.** The unit of text at a place: nothing, a word, or the logical line, however it is
wrapped. -/
theorem C78_unit (hf : Fits g ls r) {o : Nat} (ho : CharBoundary r.text o) (gr : Granularity) :
    ∃ s e, View.unit ls r o gr = some ⟨s, e⟩ ∧ UnitAt r.text o s e gr ∧ s ≤ o ∧ o ≤ e ∧ CharBoundary r.text s ∧ CharBoundary r.text e := by
  have hr := hf.text
  cases gr with
  | point => exact ⟨o, o, by simp [View.unit, Interval.new], ⟨rfl, rfl⟩, Nat.le_refl _, Nat.le_refl _, ho, ho⟩
  | word =>
    obtain ⟨c, e1, e2⟩ := new_stands hr (boundary_le ho)
    obtain ⟨c', s, e, e3, -, e4, e5⟩ := C45_select hr ho e2
    obtain ⟨h1, h2⟩ := select_start_le hr ho e4
    obtain ⟨h3, h4⟩ := select_end_ge hr ho e5
    refine ⟨s, e, ?_, ⟨e4, e5⟩, h1, h3, h2, h4⟩
    simp only [View.unit, e1, e3, Option.bind_eq_bind, Option.bind_some, Interval.new]
    rw [if_pos (by omega)]
  | line =>
    obtain ⟨n, hn⟩ := LineOf.exists hf o
    obtain ⟨s', hs'⟩ := hn
    obtain ⟨m, s, h1, h2⟩ := logicalLineRange_spec hf ⟨s', hs'⟩
    have hl := logical_isLines hr
    have hoe : o ≤ ((logicalStarts r.text)[m + 1]?).getD r.text.length := by
      cases e : (logicalStarts r.text)[m + 1]? with
      | none => exact boundary_le ho
      | some x => exact Nat.le_of_lt (h1.lt x e)
    have hle := h1.le
    refine ⟨s, _, ?_, ⟨m, h1, rfl⟩, hle, hoe, hl.chars _ (List.mem_of_getElem? h1.start), ?_⟩
    · simp only [View.unit, hf.lines.1.lineCol ho hs', h2, Option.bind_eq_bind, Option.bind_some, Interval.new]
      rw [if_pos (by omega)]
    · cases e : (logicalStarts r.text)[m + 1]? with
      | none => exact rope_boundary_length hr
      | some x => exact hl.chars _ (List.mem_of_getElem? e)

/-! ## Clicking and dragging -/

theorem IsSet.transport {v v₁ v' : View} {sel : Selection} (h : IsSet ls r v₁ v' sel) (h1 : v₁.selection = v.selection) (h2 : v₁.drag = v.drag)
    (h3 : v₁.height = v.height) (h4 : v₁.firstLine = v.firstLine) (h5 : v₁.inval = v.inval) : IsSet ls r v v' sel := by
  obtain ⟨a, b, c, d, e⟩ := h
  rw [h1, h5] at d
  rw [h4, h3] at e
  exact ⟨a, b.trans h2, c.trans h3, d, e⟩

/-- What a click leaves: the unit is added to the regions in `base`, the screen shows its
line, and a drag may follow. -/
structure Clicked (ls : Wrapping) (r : Rope) (v v' : View) (base : Selection) (s e : Nat) (gr : Granularity) : Prop where
  sel : ∃ sel, base.addRegion (.new s e) = some sel ∧ IsSet ls r { v with drag := v'.drag } v' sel ∧ Valid r sel
  drag : v'.drag = some ⟨base, s, e, gr⟩

theorem selectUnit_spec (hf : Fits g ls r) (hv : Good r v) {o : Nat} (ho : CharBoundary r.text o) (gr : Granularity) (multi : Bool) :
    ∃ s e v', UnitAt r.text o s e gr ∧ s ≤ o ∧ o ≤ e ∧ v.selectUnit ls r o gr multi = some v' ∧
      Clicked ls r v v' (if multi then v.selection else []) s e gr ∧ Good r v' := by
  obtain ⟨s, e, e1, e2, e3, e4, e5, e6⟩ := C78_unit hf ho gr
  have hx : RegionOk r (.new s e) := ⟨e5, e6, rfl⟩
  have hbase : Inv (if multi then v.selection else []) ∧ ∀ q ∈ (if multi then v.selection else []), RegionOk r q := by
    cases multi with
    | true => exact ⟨hv.selection.inv, hv.selection.ok⟩
    | false => exact ⟨by simp [Selection.Inv], by simp⟩
  obtain ⟨sel, f1, f2, -⟩ := add_ok hbase.1 hbase.2 hx
  obtain ⟨v', f3, f4⟩ := set_eq hf hv f2
  refine ⟨s, e, { v' with drag := some ⟨if multi then v.selection else [], s, e, gr⟩ }, e2, e3, e4, ?_, ⟨⟨sel, f1, ?_, f2⟩, rfl⟩, ?_⟩
  · simp only [View.selectUnit, e1, f1, f3, Option.bind_eq_bind, Option.bind_some]
    rfl
  · obtain ⟨a, b, c, d, e⟩ := f4
    exact ⟨a, rfl, c, d, e⟩
  · refine ⟨by show Valid r v'.selection; rw [f4.selection]; exact f2, fun d hd => ?_, by show 0 < v'.height; rw [f4.height]; exact hv.height⟩
    injection hd with hd
    subst hd
    exact ⟨hbase.1, hbase.2, e5, e6⟩

/-- **C78.** A click selects the unit at the place and nothing else; the cursor is on the screen. -/
theorem C78_click (hf : Fits g ls r) (hv : Good r v) {o : Nat} (ho : CharBoundary r.text o) (gr : Granularity) :
    ∃ s e v', UnitAt r.text o s e gr ∧ v.select ls r o gr false = some v' ∧ v'.selection = [.new s e] ∧ v'.drag = some ⟨[], s, e, gr⟩ ∧
      (∃ n, LineOf ls r e n ∧ ScrolledTo v.firstLine v.height n v'.firstLine) ∧ Good r v' := by
  obtain ⟨s, e, v', h1, h2, h3, h4, h5, h6⟩ := selectUnit_spec hf hv ho gr false
  obtain ⟨sel, f1, f2, -⟩ := h5.sel
  have f1 : Selection.addRegion [] (.new s e) = some sel := f1
  rw [add_nil] at f1
  injection f1 with f1
  subst f1
  refine ⟨s, e, v', h1, ?_, f2.selection, h5.drag, ?_, h6⟩
  · simpa [View.select] using h4
  · obtain ⟨q, n, g1, g2, g3, -⟩ := f2.screen
    simp at g1
    subst g1
    exact ⟨n, g2, g3⟩

/-- Some region of the selection is at the place `o`. -/
def TouchedAt (s : Selection) (o : Nat) : Prop := ∃ q ∈ s, q.lo ≤ o ∧ o ≤ q.hi

theorem range_empty {s : Selection} (hs : Inv s) {o : Nat} (h : ¬ TouchedAt s o) : s.regionsInRange o o = some [] := by
  obtain ⟨A, l, B, h1, h2, h3, h4, h5⟩ := C32_range_partial hs (Nat.le_refl o)
  rw [h2]
  cases l with
  | nil => rfl
  | cons q l => exact absurd ⟨q, by rw [h1]; simp, (h4 q (by simp)).symm⟩ h

/-- **C78.** A click with "multi" on or for units of text adds the unit to the selection. -/
theorem C78_click_multi (hf : Fits g ls r) (hv : Good r v) {o : Nat} (ho : CharBoundary r.text o) (gr : Granularity)
    (h : gr = .point → ¬ TouchedAt v.selection o) :
    ∃ s e v' sel, UnitAt r.text o s e gr ∧ v.select ls r o gr true = some v' ∧ v.selection.addRegion (.new s e) = some sel ∧ v'.selection = sel ∧
      v'.drag = some ⟨v.selection, s, e, gr⟩ ∧ Good r v' := by
  obtain ⟨s, e, v', h1, h2, h3, h4, h5, h6⟩ := selectUnit_spec hf hv ho gr true
  obtain ⟨sel, f1, f2, -⟩ := h5.sel
  refine ⟨s, e, v', sel, h1, ?_, f1, f2.selection, h5.drag, h6⟩
  unfold View.select
  by_cases hg : gr = .point
  · rw [if_pos ⟨rfl, hg⟩]
    simp only [View.deselectAtOffset, range_empty hv.selection.inv (h hg), Option.bind_eq_bind, Option.bind_some, List.isEmpty_nil, if_true,
      Option.pure_def, Bool.false_eq_true, if_false]
    exact h4
  · rw [if_neg (fun h => hg h.2)]
    exact h4

theorem setRaw_good (hf : Fits g ls r) (hv : Good r v) {sel : Selection} (hs : Valid r sel) :
    ∃ v', v.setSelectionRaw ls r sel = some v' ∧ v'.selection = sel ∧ v'.drag = v.drag ∧ v'.firstLine = v.firstLine ∧ v'.height = v.height ∧ Good r v' := by
  obtain ⟨n, m, n', m', -, -, e⟩ := setRaw_eq hf hv.selection hs
  exact ⟨_, e, rfl, rfl, rfl, rfl, hs, hv.drag, hv.height⟩

/-- **C78** (in part). A click with "multi" on a region takes it out of the selection if there are
others.  Only one of two regions that touch at the place is taken out (`C78_deselect_refuted`). -/
theorem C78_deselect_partial (hf : Fits g ls r) (hv : Good r v) {o : Nat} {A B : Selection} {q : SelRegion} (hs : v.selection = A ++ q :: B)
    (hq : q.lo ≤ o ∧ o ≤ q.hi) (hA : ∀ x ∈ A, x.hi < o) (hB : ∀ x ∈ B, o < x.lo) (hne : A ++ B ≠ []) :
    ∃ v', v.select ls r o .point true = some v' ∧ v'.selection = A ++ B ∧ v'.drag = none ∧ v'.firstLine = v.firstLine ∧ Good r v' := by
  have hinv := hv.selection.inv
  -- what the search finds
  have uniq : ∀ {A' l B' : Selection}, v.selection = A' ++ l ++ B' → (∀ r ∈ A', r.hi < o) → (∀ r ∈ l, o ≤ r.hi ∧ r.lo ≤ o) → (∀ r ∈ B', o ≤ r.lo ∧ (r.lo = o → ∃ l' x, l = l' ++ [x] ∧ x.hi = o ∧ x.start ≠ x.stop)) →
      A' = A ∧ l = [q] ∧ B' = B := by
    intro A' l B' e h1 h2 h3
    have split : ∀ x ∈ v.selection, (x.hi < o ∨ o < x.lo) ∨ x = q := by
      intro x hx
      rw [hs] at hx
      rcases List.mem_append.1 hx with h | h
      · exact .inl (.inl (hA x h))
      · rcases List.mem_cons.1 h with rfl | h
        · exact .inr rfl
        · exact .inl (.inr (hB x h))
    have hf : ∀ (L : Selection), L.filter (fun x => decide (x.hi < o)) = L ↔ ∀ x ∈ L, x.hi < o := fun L => by simp [List.filter_eq_self]
    have eA : v.selection.filter (fun x => decide (x.hi < o)) = A := by
      rw [hs, List.filter_append, (hf A).2 hA, List.filter_eq_nil_iff.2, List.append_nil]
      intro x hx
      rcases List.mem_cons.1 hx with rfl | hx
      · simp; omega
      · have := hB x hx; have := lo_le x; simp; omega
    have hlB : ∀ x ∈ l ++ B', ¬ x.hi < o := by
      intro x hx
      rcases List.mem_append.1 hx with h | h
      · have := h2 x h; omega
      · have := (h3 x h).1; have := lo_le x; omega
    have eA' : v.selection.filter (fun x => decide (x.hi < o)) = A' := by
      rw [e, List.append_assoc, List.filter_append, (hf A').2 h1, List.filter_eq_nil_iff.2, List.append_nil]
      intro x hx
      have := hlB x hx
      simpa using this
    have hAA : A' = A := by rw [← eA', eA]
    subst hAA
    have e2 : l ++ B' = q :: B := by
      have : A' ++ (l ++ B') = A' ++ (q :: B) := by rw [← List.append_assoc, ← e, hs]
      exact List.append_cancel_left this
    cases l with
    | nil =>
      simp only [List.nil_append] at e2
      subst e2
      have h4 := h3 q (by simp)
      have : q.lo = o := by omega
      obtain ⟨l', x, h5, -⟩ := h4.2 this
      simp at h5
    | cons y l =>
      simp only [List.cons_append, List.cons.injEq] at e2
      obtain ⟨rfl, e2⟩ := e2
      cases l with
      | nil => exact ⟨rfl, rfl, e2⟩
      | cons z l =>
        have hz : z ∈ B := by rw [← e2]; simp
        have := hB z hz
        have := (h2 z (by simp)).2
        omega
  obtain ⟨A', l, B', h1, h2, h3, h4, h5⟩ := C32_range_partial hinv (Nat.le_refl o)
  obtain ⟨rfl, rfl, rfl⟩ := uniq h1 h3 h4 (fun r hr => ⟨(h5 r hr).1, fun h => by obtain ⟨-, l', x, h6, h7, h8⟩ := (h5 r hr).2 h; exact ⟨l', x, h6, h7, h8⟩⟩)
  obtain ⟨A'', l, B'', k1, k2, k3, k4, k5⟩ := C32_delete_adjacent_partial hinv (Nat.le_refl o)
  obtain ⟨rfl, rfl, rfl⟩ := uniq k1 k3 k4 (fun r hr => ⟨(k5 r hr).1, fun h => by obtain ⟨-, l', x, h6, h7, h8⟩ := (k5 r hr).2 h; exact ⟨l', x, h6, h7, h8⟩⟩)
  have hval : Valid r (A'' ++ B'') := by
    refine ⟨hne, ?_, fun x hx => hv.selection.ok x ?_⟩
    · have : (A'' ++ B'').Sublist v.selection := by rw [hs]; exact (List.Sublist.refl A'').append (List.sublist_cons_self q B'')
      exact List.Pairwise.sublist this hinv
    · rw [hs]
      rcases List.mem_append.1 hx with h | h <;> simp [h]
  have hgood : Good r { v with drag := none } := ⟨hv.selection, by simp, hv.height⟩
  obtain ⟨v', f1, f2, f3, f4, f5, f6⟩ := setRaw_good hf hgood hval
  refine ⟨v', ?_, f2, f3, f4, f6⟩
  have hne' : ¬ (A'' = [] ∧ B'' = []) := fun h => hne (by rw [h.1, h.2]; rfl)
  simp [View.select, View.deselectAtOffset, h2, k2, hne', f1]

/-- **C78.** Clicking twice with "multi" at a place where nothing is selected: the caret comes and
goes. -/
theorem C78_toggle (hf : Fits g ls r) (hv : Good r v) {o : Nat} (ho : CharBoundary r.text o) (h : ¬ TouchedAt v.selection o) :
    ∃ v₁ v₂, v.select ls r o .point true = some v₁ ∧ .caret o ∈ v₁.selection ∧ v₁.select ls r o .point true = some v₂ ∧ v₂.selection = v.selection := by
  obtain ⟨s, e, v₁, sel, ⟨rfl, rfl⟩, h2, h3, h4, -, h6⟩ := C78_click_multi hf hv ho .point (fun _ => h)
  obtain ⟨pre, mid, post, R, e1, e2, e3, e4, -, e5, -⟩ := C32_add hv.selection.inv (.new e e)
  have hmid : mid = [] := by
    cases mid with
    | nil => rfl
    | cons m mid =>
      refine absurd ⟨m, by rw [e1]; simp, ?_⟩ h
      have := (e5 m (by simp)).2
      simp only [Meet, SelRegion.new, SelRegion.lo, SelRegion.hi] at this ⊢
      omega
  have hR := e4 hmid
  subst hmid hR
  rw [h3] at e2
  injection e2 with e2
  have hsel : v₁.selection = pre ++ .new e e :: post := by rw [h4, e2]
  have hlh : (SelRegion.new e e).lo = e ∧ (SelRegion.new e e).hi = e := by simp [SelRegion.new, SelRegion.lo, SelRegion.hi]
  have e3' := e3
  unfold Selection.Inv at e3'
  rw [List.pairwise_append, List.pairwise_cons] at e3'
  have heq : v.selection = pre ++ post := by simpa using e1
  obtain ⟨v₂, k1, k2, -⟩ := C78_deselect_partial hf h6 (o := e) (A := pre) (B := post) (q := .new e e) hsel (by omega)
    (fun x hx => by have := (e3'.2.2 x hx (.new e e) (by simp)).2 (.inr rfl); omega)
    (fun x hx => by have := (e3'.2.1.1 x hx).2 (.inl rfl); omega) (by rw [← heq]; exact hv.selection.some)
  exact ⟨v₁, v₂, h2, by rw [hsel]; simp [SelRegion.caret, SelRegion.new], k1, by rw [k2, heq]⟩

/-- The region that is selected from the unit `min` to `max` to the unit `s` to `e` at `o`. -/
def Range (min max o s e : Nat) : SelRegion := if min ≤ o then .new min e else .new max s

theorem rangeRegion_spec (hf : Fits g ls r) {lo hi o : Nat} (h1 : CharBoundary r.text lo) (h2 : CharBoundary r.text hi) (ho : CharBoundary r.text o) (gr : Granularity) :
    ∃ s e, UnitAt r.text o s e gr ∧ View.rangeRegion ls r lo hi o gr = some (Range lo hi o s e) ∧ RegionOk r (Range lo hi o s e) := by
  obtain ⟨s, e, e1, e2, e3, e4, e5, e6⟩ := C78_unit hf ho gr
  refine ⟨s, e, e2, ?_, ?_⟩
  · simp only [View.rangeRegion, e1, Option.bind_eq_bind, Option.bind_some, Range, ge_iff_le]
    rfl
  · unfold Range
    split
    · exact ⟨h1, e6, rfl⟩
    · exact ⟨h2, e5, rfl⟩

/-- **C78.** Dragging selects from the unit where it began to the unit under the pointer, besides
the regions that were selected before. -/
theorem C78_drag (hf : Fits g ls r) (hv : Good r v) {d : DragState} (hd : v.drag = some d) {o : Nat} (ho : CharBoundary r.text o) :
    ∃ s e sel v', UnitAt r.text o s e d.granularity ∧ d.base.addRegion (Range d.min d.max o s e) = some sel ∧ v.doDrag ls r o = some v' ∧
      IsSet ls r v v' sel ∧ Good r v' := by
  have hdo := hv.drag d hd
  obtain ⟨s, e, e1, e2, e3⟩ := rangeRegion_spec hf hdo.min hdo.max ho d.granularity
  obtain ⟨sel, f1, f2, -⟩ := add_ok hdo.inv hdo.ok e3
  obtain ⟨v', f3, f4⟩ := set_eq hf hv f2
  have hreg : (⟨(Range d.min d.max o s e).start, (Range d.min d.max o s e).stop, none, false⟩ : SelRegion) = Range d.min d.max o s e := by
    unfold Range
    split <;> rfl
  refine ⟨s, e, sel, v', e1, f1, ?_, f4, f4.good hv f2⟩
  simp only [View.doDrag, hd, e2, Option.bind_eq_bind, Option.bind_some, hreg, f1, f3]

/-- **C78.** Only the last place of a drag counts. -/
theorem C78_drags (hf : Fits g ls r) (hv : Good r v) {d : DragState} (hd : v.drag = some d) : ∀ (path : List Nat) {o : Nat}, (∀ p ∈ path, CharBoundary r.text p) →
    CharBoundary r.text o → ∃ v₁ v₂ v₃, path.foldlM (fun v p => View.doDrag ls r v p) v = some v₁ ∧ v₁.doDrag ls r o = some v₂ ∧ v.doDrag ls r o = some v₃ ∧
      v₂.selection = v₃.selection ∧ v₂.drag = v₃.drag
  | path, o, hp, ho => by
    have run : ∀ (path : List Nat) (w : View), Good r w → w.drag = some d → (∀ p ∈ path, CharBoundary r.text p) →
        ∃ w', path.foldlM (fun v p => View.doDrag ls r v p) w = some w' ∧ Good r w' ∧ w'.drag = some d := by
      intro path
      induction path with
      | nil => intro w h1 h2 _; exact ⟨w, rfl, h1, h2⟩
      | cons p path ih =>
        intro w h1 h2 h3
        obtain ⟨_, _, _, w', _, _, e1, e2, e3⟩ := C78_drag hf h1 h2 (h3 p (by simp))
        obtain ⟨w'', f1, f2, f3⟩ := ih w' e3 (e2.drag.trans h2) (fun q hq => h3 q (by simp [hq]))
        exact ⟨w'', by simp only [List.foldlM_cons, e1, Option.bind_eq_bind, Option.bind_some, f1], f2, f3⟩
    obtain ⟨v₁, h1, h2, h3⟩ := run path v hv hd hp
    have hdo := hv.drag d hd
    obtain ⟨s, e, e1, e2, e3⟩ := rangeRegion_spec hf hdo.min hdo.max ho d.granularity
    obtain ⟨sel, f1, f2, -⟩ := add_ok hdo.inv hdo.ok e3
    have hreg : (⟨(Range d.min d.max o s e).start, (Range d.min d.max o s e).stop, none, false⟩ : SelRegion) = Range d.min d.max o s e := by
      unfold Range
      split <;> rfl
    obtain ⟨v₂, g1, g2⟩ := set_eq hf h2 f2
    obtain ⟨v₃, g3, g4⟩ := set_eq hf hv f2
    refine ⟨v₁, v₂, v₃, h1, ?_, ?_, by rw [g2.selection, g4.selection], by rw [g2.drag, g4.drag, hd, h3]⟩
    · simp only [View.doDrag, h3, e2, Option.bind_eq_bind, Option.bind_some, hreg, f1, g1]
    · simp only [View.doDrag, hd, e2, Option.bind_eq_bind, Option.bind_some, hreg, f1, g3]

/-- **C78.** Extending keeps the other regions and the place where the last one starts. -/
theorem C78_extend (hf : Fits g ls r) (hv : Good r v) {rest : Selection} {last : SelRegion} (hs : v.selection = rest ++ [last]) {o : Nat}
    (ho : CharBoundary r.text o) (gr : Granularity) :
    ∃ s e sel v', UnitAt r.text o s e gr ∧ rest.addRegion (Range last.start last.start o s e) = some sel ∧ v.extendSelection ls r o gr = some v' ∧
      v'.selection = sel ∧ v'.drag = some ⟨rest, last.start, last.start, gr⟩ ∧
      (∃ q n, sel.getLast? = some q ∧ LineOf ls r q.stop n ∧ ScrolledTo v.firstLine v.height n v'.firstLine) ∧ Good r v' := by
  have hl := (hv.selection.ok last (by rw [hs]; simp)).start
  have hinv : Inv rest := by
    have := hv.selection.inv
    rw [hs] at this
    exact (List.pairwise_append.1 this).1
  have hok : ∀ q ∈ rest, RegionOk r q := fun q hq => hv.selection.ok q (by rw [hs]; simp [hq])
  obtain ⟨s, e, e1, e2, e3⟩ := rangeRegion_spec hf hl hl ho gr
  obtain ⟨sel, f1, f2, -⟩ := add_ok hinv hok e3
  have hg : Good r { v with drag := some ⟨rest, last.start, last.start, gr⟩ } :=
    ⟨hv.selection, fun d hd => by injection hd with hd; subst hd; exact ⟨hinv, hok, hl, hl⟩, hv.height⟩
  obtain ⟨v', f3, f4⟩ := set_eq hf hg f2
  have hall := add_all rest [] (by simpa using hinv)
  rw [List.nil_append] at hall
  refine ⟨s, e, sel, v', e1, f1, ?_, f4.selection, f4.drag, ?_, f4.good hg f2⟩
  · have h1 : v.selection.getLast? = some last := by rw [hs]; simp
    have h2 : v.selection.dropLast = rest := by rw [hs]; simp
    simp only [View.extendSelection, h1, h2, hall, e2, f1, f3, Option.bind_eq_bind, Option.bind_some]
  · obtain ⟨q, n, g1, g2, g3, -⟩ := f4.screen
    exact ⟨q, n, g1, g2, g3⟩

/-- **C78.** Extending the only region twice is extending it once, to the second place. -/
theorem C78_extend_twice (hf : Fits g ls r) (hv : Good r v) {q : SelRegion} (hs : v.selection = [q]) {o p : Nat} (ho : CharBoundary r.text o)
    (hp : CharBoundary r.text p) (gr : Granularity) :
    ∃ v₁ v₂ v₃, v.extendSelection ls r o gr = some v₁ ∧ v₁.extendSelection ls r p gr = some v₂ ∧ v.extendSelection ls r p gr = some v₃ ∧
      v₂.selection = v₃.selection ∧ v₂.drag = v₃.drag := by
  obtain ⟨s, e, sel, v₁, -, h2, h3, h4, -, -, h6⟩ := C78_extend hf hv (rest := []) (by simpa using hs) ho gr
  rw [add_nil] at h2
  injection h2 with h2
  subst h2
  have hstart : (Range q.start q.start o s e).start = q.start := by unfold Range; split <;> rfl
  obtain ⟨s2, e2, sel2, v₂, k1, k2, k3, k4, k5, -⟩ := C78_extend hf h6 (rest := []) (by simpa using h4) hp gr
  obtain ⟨s3, e3, sel3, v₃, l1, l2, l3, l4, l5, -⟩ := C78_extend hf hv (rest := []) (by simpa using hs) hp gr
  -- the unit is the same one
  obtain ⟨s', e', i1, -⟩ := C78_unit hf hp gr
  refine ⟨v₁, v₂, v₃, h3, k3, l3, ?_, by rw [k5, l5, hstart]⟩
  have m1 : v₁.extendSelection ls r p gr = (View.setSelection ls r { v₁ with drag := some ⟨[], q.start, q.start, gr⟩ } [Range q.start q.start p s' e']) := by
    simp only [View.extendSelection, h4, List.getLast?_singleton, List.dropLast_singleton, List.foldlM_nil, hstart, Option.pure_def, Option.bind_eq_bind, Option.bind_some,
      View.rangeRegion, i1, add_nil]
    rfl
  have m2 : v.extendSelection ls r p gr = (View.setSelection ls r { v with drag := some ⟨[], q.start, q.start, gr⟩ } [Range q.start q.start p s' e']) := by
    simp only [View.extendSelection, hs, List.getLast?_singleton, List.dropLast_singleton, List.foldlM_nil, Option.pure_def, Option.bind_eq_bind, Option.bind_some,
      View.rangeRegion, i1, add_nil]
    rfl
  have key : ∀ {w w' : View} {sl : Selection}, View.setSelection ls r w sl = some w' → w'.selection = sl := by
    intro w w' sl h
    simp only [View.setSelection, View.setSelectionRaw, View.invalidateSelection, View.scrollToCursor, Option.bind_eq_bind, Option.bind_eq_some_iff, Option.pure_def, Option.some.injEq] at h
    obtain ⟨a, ⟨b, -, c, -, d, -, x, -, y, -, rfl⟩, -, -, -, -, -, -, rfl⟩ := h
    rfl
  rw [key (m1 ▸ k3), key (m2 ▸ l3)]

/-! ## Splitting into lines -/

/-- The lines of a piece of text that begins at `pos`, without their newlines; `start` is where
the current line begins.  After the last newline there is no line. -/
def linesOf (start : Nat) : Nat → List UInt8 → List SelRegion
  | pos, [] => if start < pos then [.new start pos] else []
  | pos, b :: t => if b = newline then .new start pos :: linesOf (pos + 1) (pos + 1) t else linesOf start (pos + 1) t

/-- The lines of a region; a caret stays a caret. -/
def linesOfRegion (t : List UInt8) (q : SelRegion) : List SelRegion :=
  if q.start = q.stop then [.caret q.stop] else linesOf q.lo q.lo ((t.take q.hi).drop q.lo)

/-- The region ends at the end of a line: after a newline or at the end of the text. -/
def EndsLine (t : List UInt8) (q : SelRegion) : Prop := q.start = q.stop ∨ LineBoundary t q.hi ∨ q.hi = t.length

theorem linesOf_skip (start : Nat) : ∀ (a : List UInt8) (pos : Nat) (b : List UInt8), newline ∉ a → linesOf start pos (a ++ b) = linesOf start (pos + a.length) b
  | [], pos, b, _ => by simp
  | x :: a, pos, b, h => by
    simp only [List.mem_cons, not_or] at h
    rw [List.cons_append, linesOf, if_neg (Ne.symm h.1), linesOf_skip start a (pos + 1) b h.2]
    simp only [List.length_cons]
    congr 1
    omega

theorem slice_split (t : List UInt8) {a b c : Nat} (h1 : a ≤ b) (h2 : b ≤ c) : (t.take c).drop a = (t.take b).drop a ++ (t.take c).drop b := by
  have : t.take c = t.take b ++ (t.take c).drop b := by
    have := (List.take_append_drop b (t.take c)).symm
    rwa [List.take_take, Nat.min_eq_left h2] at this
  rw [this, List.drop_append]
  by_cases hb : b ≤ t.length
  · have hl : (t.take b).length = b := by simp; omega
    simp [hl, h1]
  · have : (t.take c).drop b = [] := by simp; omega
    simp [this]

theorem no_newline {t : List UInt8} {a b : Nat} (h : ∀ k, a < k → k ≤ b → ¬ LineBoundary t k) : newline ∉ (t.take b).drop a := by
  intro hm
  obtain ⟨i, hi⟩ := List.getElem?_of_mem hm
  rw [List.getElem?_drop, List.getElem?_take] at hi
  split at hi
  · refine h (a + i + 1) (by omega) (by omega) ⟨by omega, ?_⟩
    simpa using hi
  · cases hi

/-- The lines of a region, one after the other. -/
theorem linesOf_next {t : List UInt8} {p hi e : Nat} (hhi : hi ≤ t.length) (h : IsNext (LineBoundary t) t.length p (some e)) (he : e ≤ hi) :
    linesOf p p ((t.take hi).drop p) = .new p (e - 1) :: linesOf e e ((t.take hi).drop e) := by
  obtain ⟨h1, h2, h3, h4⟩ := h
  rw [slice_split t (a := p) (b := e - 1) (c := hi) (by omega) (by omega), linesOf_skip p _ p _ (no_newline fun k k1 k2 => h4 k k1 (by omega))]
  have hlen : ((t.take (e - 1)).drop p).length = e - 1 - p := by simp; omega
  have hdrop : (t.take hi).drop (e - 1) = newline :: (t.take hi).drop e := by
    rw [List.drop_eq_getElem_cons (by simp; omega)]
    have h5 := h3.2
    rw [List.getElem?_eq_getElem (by omega), Option.some.injEq] at h5
    congr 1
    · rw [List.getElem_take]; exact h5
    · congr 1; omega
  rw [hlen, hdrop, linesOf, if_pos rfl, show p + (e - 1 - p) = e - 1 by omega, show e - 1 + 1 = e by omega]

theorem linesOf_last {t : List UInt8} {p : Nat} (hp : p < t.length) (h : IsNext (LineBoundary t) t.length p none) :
    linesOf p p ((t.take t.length).drop p) = [.new p t.length] := by
  have h0 : ∀ k, p < k → k ≤ t.length → ¬ LineBoundary t k := h
  have := linesOf_skip p ((t.take t.length).drop p) p [] (no_newline h0)
  rw [List.append_nil] at this
  rw [this, linesOf]
  have hl : ((t.take t.length).drop p).length = t.length - p := by simp
  rw [hl, show p + (t.length - p) = t.length by omega, if_pos hp]

theorem linesOf_nil (p : Nat) {t : List UInt8} {hi : Nat} (h : hi ≤ p) : linesOf p p ((t.take hi).drop p) = [] := by
  have : (t.take hi).drop p = [] := by simp; omega
  rw [this]
  simp [linesOf]

/-- The lines are in order, between the start and the end of the piece. -/
theorem linesOf_inv : ∀ (t : List UInt8) (start pos : Nat), start ≤ pos → Inv (linesOf start pos t) ∧
    ∀ q ∈ linesOf start pos t, start ≤ q.lo ∧ q.hi ≤ pos + t.length ∧ q.start ≤ q.stop ∧ q.upstream = false
  | [], start, pos, h => by
    unfold linesOf
    split
    · refine ⟨by simp [Selection.Inv], fun q hq => ?_⟩
      rw [List.mem_singleton.1 hq]
      simp [SelRegion.new, SelRegion.lo, SelRegion.hi]
      omega
    · exact ⟨by simp [Selection.Inv], by simp⟩
  | b :: t, start, pos, h => by
    unfold linesOf
    split
    · obtain ⟨h1, h2⟩ := linesOf_inv t (pos + 1) (pos + 1) (Nat.le_refl _)
      constructor
      · refine List.pairwise_cons.2 ⟨fun q hq => ?_, h1⟩
        have := h2 q hq
        simp only [Before, SelRegion.new, SelRegion.hi]
        omega
      · intro q hq
        rcases List.mem_cons.1 hq with rfl | hq
        · simp [SelRegion.new, SelRegion.lo, SelRegion.hi]
          omega
        · obtain ⟨k1, k2, k3, k4⟩ := h2 q hq
          simp only [List.length_cons]
          exact ⟨by omega, by omega, k3, k4⟩
    · obtain ⟨h1, h2⟩ := linesOf_inv t start (pos + 1) (by omega)
      exact ⟨h1, fun q hq => by obtain ⟨k1, k2, k3, k4⟩ := h2 q hq; simp only [List.length_cons]; exact ⟨k1, by omega, k3, k4⟩⟩

theorem splitLoop_spec (hr : r.Balanced) {hi : Nat} (hhi : hi ≤ r.text.length) (hend : LineBoundary r.text hi ∨ hi = r.text.length) :
    ∀ (fuel : Nat) {c : Cursor (List UInt8) RopeInfo} {pre post : List (List UInt8)} {l : List UInt8} (sel : Selection), c.Valid pre l post → c.root = r →
      r.text.length < c.position + fuel → Inv (sel ++ linesOf c.position c.position ((r.text.take hi).drop c.position)) →
      View.splitLoop r hi fuel c sel = some (sel ++ linesOf c.position c.position ((r.text.take hi).drop c.position)) := by
  intro fuel
  have hlen : r.len = r.text.length := Rope.len_eq hr
  induction fuel with
  | zero =>
    intro c pre post l sel h1 h2 h3
    subst h2
    have := h1.toAt.rootLen
    have := h1.hi
    have := h1.lo
    omega
  | succ fuel ih =>
    intro c pre post l sel h1 h2 h3 h4
    unfold View.splitLoop
    by_cases hc : c.position < hi
    · rw [if_pos hc]
      subst h2
      obtain ⟨c', o, e1, e2, e3, e4⟩ := Cursor.next_spec_pos finds_lines h1 (fun h => absurd h (by decide))
      simp only [e1, Option.bind_eq_bind, Option.bind_some]
      cases o with
      | none =>
        have h0 : ∀ k, c.position < k → k ≤ c.root.text.length → ¬ LineBoundary c.root.text k := e2
        have hhi : hi = c.root.text.length := by
          rcases hend with h | h
          · exact absurd h (h0 hi hc hhi)
          · exact h
        subst hhi
        rw [linesOf_last hc e2] at h4 ⊢
        have hpos := e4 rfl
        rw [hlen] at hpos
        simp only [View.splitEnd, hpos, hlen, if_true, add_after h4, Option.bind_some]
        obtain ⟨k, rfl⟩ : ∃ k, fuel = k + 1 := ⟨fuel - 1, by omega⟩
        unfold View.splitLoop
        rw [if_neg (by omega)]
      | some e =>
        have hle : e ≤ hi := by
          rcases hend with h | h
          · rcases Nat.lt_or_ge hi e with hlt | hge
            · exact absurd h (e2.2.2.2 hi hc hlt)
            · exact hge
          · rw [h]; exact e2.2.1
        have hs : View.splitEnd c.root.len hi (some e) c'.position = some (e - 1) := by
          simp only [View.splitEnd]
          split
          · congr 1; omega
          · rfl
        obtain ⟨hp, pre', l', post', hv⟩ := e3.found e rfl
        have hlt := e2.1
        rw [linesOf_next hhi e2 hle] at h4 ⊢
        have h5 : Selection.Inv (sel ++ [.new c.position (e - 1)] ++ linesOf e e ((c.root.text.take hi).drop e)) := by
          simpa using h4
        have h6 := h5
        unfold Selection.Inv at h6
        rw [List.pairwise_append] at h6
        have h7 := ih (sel ++ [.new c.position (e - 1)]) hv e3.root (by omega) (by rw [hp]; exact h5)
        simp only [hs, add_after h6.1, Option.bind_some]
        rw [h7, hp]
        simp
    · rw [if_neg hc, linesOf_nil _ (by omega), List.append_nil]

/-- A line that reaches the end of the piece is not empty and has no newline there. -/
theorem linesOf_end : ∀ (t : List UInt8) (start pos : Nat), start ≤ pos → ∀ q ∈ linesOf start pos t, q.hi = pos + t.length → q.start ≠ q.stop ∧ t.getLast? ≠ some newline
  | [], start, pos, _, q, hq, h => by
    unfold linesOf at hq
    split at hq
    · rw [List.mem_singleton.1 hq]
      simp [SelRegion.new]
      omega
    · simp at hq
  | b :: t, start, pos, hsp, q, hq, h => by
    have hlast : t ≠ [] → (b :: t).getLast? = t.getLast? := by
      intro h0
      obtain ⟨x, y, rfl⟩ := List.exists_cons_of_ne_nil h0
      simp [List.getLast?_cons_cons]
    unfold linesOf at hq
    simp only [List.length_cons] at h
    split at hq
    · rcases List.mem_cons.1 hq with rfl | hq
      · simp only [SelRegion.new, SelRegion.hi] at h
        omega
      · have h0 : t ≠ [] := by
          rintro rfl
          simp [linesOf] at hq
        rw [hlast h0]
        exact linesOf_end t _ _ (by omega) q hq (by omega)
    · rename_i hb
      by_cases h0 : t = []
      · subst h0
        refine ⟨(linesOf_end [] start (pos + 1) (by omega) q hq (by simpa using h)).1, ?_⟩
        simpa using hb
      · rw [hlast h0]
        exact linesOf_end t _ _ (by omega) q hq (by omega)

/-- Where lines begin and end. -/
theorem linesOf_ends : ∀ (t : List UInt8) (start pos : Nat), ∀ q ∈ linesOf start pos t,
    (q.start = start ∨ ∃ i, t[i]? = some newline ∧ q.start = pos + i + 1) ∧ (q.stop = pos + t.length ∨ ∃ i, t[i]? = some newline ∧ q.stop = pos + i)
  | [], start, pos, q, hq => by
    unfold linesOf at hq
    split at hq
    · rw [List.mem_singleton.1 hq]
      exact ⟨.inl rfl, .inl (by simp [SelRegion.new])⟩
    · simp at hq
  | b :: t, start, pos, q, hq => by
    unfold linesOf at hq
    split at hq
    · rename_i hb
      rcases List.mem_cons.1 hq with rfl | hq
      · exact ⟨.inl rfl, .inr ⟨0, by simp [hb], rfl⟩⟩
      · obtain ⟨h1, h2⟩ := linesOf_ends t _ _ q hq
        refine ⟨.inr ?_, ?_⟩
        · rcases h1 with h1 | ⟨i, h1, h1'⟩
          · exact ⟨0, by simp [hb], h1⟩
          · exact ⟨i + 1, by simpa using h1, by omega⟩
        · rcases h2 with h2 | ⟨i, h2, h2'⟩
          · exact .inl (by simp only [List.length_cons]; omega)
          · exact .inr ⟨i + 1, by simpa using h2, by omega⟩
    · obtain ⟨h1, h2⟩ := linesOf_ends t _ _ q hq
      refine ⟨?_, ?_⟩
      · rcases h1 with h1 | ⟨i, h1, h1'⟩
        · exact .inl h1
        · exact .inr ⟨i + 1, by simpa using h1, by omega⟩
      · rcases h2 with h2 | ⟨i, h2, h2'⟩
        · exact .inl (by simp only [List.length_cons]; omega)
        · exact .inr ⟨i + 1, by simpa using h2, by omega⟩

theorem linesOf_ne : ∀ (t : List UInt8) (start pos : Nat), start < pos + t.length → linesOf start pos t ≠ []
  | [], start, pos, h => by
    unfold linesOf
    rw [if_pos (by simpa using h)]
    simp
  | b :: t, start, pos, h => by
    unfold linesOf
    split
    · simp
    · exact linesOf_ne t start (pos + 1) (by simp only [List.length_cons] at h; omega)

theorem before_newline (hr : r.Balanced) {k : Nat} (h : r.text[k]? = some newline) : CharBoundary r.text k := by
  refine (boundary_iff_spec (Rope.text_utf8 hr)).1 ?_
  simp only [isCharBoundary, h]
  simp [isCont, newline]

/-- What is known of the lines of a region. -/
theorem linesOfRegion_spec (hr : r.Balanced) {q : SelRegion} (hq : RegionOk r q) (he : EndsLine r.text q) : Selection.Inv (linesOfRegion r.text q) ∧
    linesOfRegion r.text q ≠ [] ∧ (∀ x ∈ linesOfRegion r.text q, RegionOk r x ∧ q.lo ≤ x.lo ∧ x.hi ≤ q.hi ∧
      (x.hi = q.hi → q.start ≠ q.stop → x.start ≠ x.stop ∧ q.hi = r.text.length)) := by
  have hlo := hq.lo
  have hhi := hq.hi
  have hle := boundary_le hhi
  have hlh := lo_le q
  unfold linesOfRegion
  split
  · rename_i hc
    refine ⟨by simp [Selection.Inv], by simp, fun x hx => ?_⟩
    rw [List.mem_singleton.1 hx]
    refine ⟨⟨hq.stop, hq.stop, rfl⟩, ?_⟩
    simp only [SelRegion.caret, SelRegion.lo, SelRegion.hi, hc, ne_eq, not_true_eq_false, false_implies, implies_true, and_true]
    omega
  · rename_i hc
    have hlt : q.lo < q.hi := by
      simp only [SelRegion.lo, SelRegion.hi]
      omega
    have hlen : ((r.text.take q.hi).drop q.lo).length = q.hi - q.lo := by simp; omega
    have hget : ∀ i x, ((r.text.take q.hi).drop q.lo)[i]? = some x → r.text[q.lo + i]? = some x := by
      intro i x h
      rw [List.getElem?_drop, List.getElem?_take] at h
      split at h
      · exact h
      · cases h
    have hsum : q.lo + (q.hi - q.lo) = q.hi := by omega
    have hsum' : q.lo + (q.hi - q.lo - 1) = q.hi - 1 := by omega
    have hsub : q.hi - q.lo - 1 < ((r.text.take q.hi).drop q.lo).length := by omega
    obtain ⟨h1, h2⟩ := linesOf_inv ((r.text.take q.hi).drop q.lo) q.lo q.lo (Nat.le_refl _)
    refine ⟨h1, ?_, fun x hx => ?_⟩
    · exact linesOf_ne _ _ _ (by rw [hlen]; omega)
    · obtain ⟨k1, k2, k3, k4⟩ := h2 x hx
      obtain ⟨e1, e2⟩ := linesOf_ends _ _ _ x hx
      rw [hlen, hsum] at e2 k2
      refine ⟨⟨?_, ?_, k4⟩, k1, k2, fun hxq _ => ?_⟩
      · rcases e1 with e1 | ⟨i, e1, e1'⟩
        · rw [e1]; exact hlo
        · refine line_boundary_char hr ⟨by rw [e1']; exact Nat.succ_pos _, ?_⟩
          rw [e1', Nat.add_sub_cancel]
          exact hget _ _ e1
      · rcases e2 with e2 | ⟨i, e2, e2'⟩
        · rw [e2]; exact hhi
        · rw [e2']
          exact before_newline hr (hget _ _ e2)
      · obtain ⟨m1, m2⟩ := linesOf_end _ _ _ (Nat.le_refl _) x hx (by rw [hlen, hsum]; exact hxq)
        refine ⟨m1, ?_⟩
        rcases he with h | h | h
        · exact absurd h hc
        · exfalso
          apply m2
          rw [List.getLast?_eq_getElem?, hlen, List.getElem?_drop, List.getElem?_take, hsum', if_pos (by omega)]
          exact h.2
        · exact h

theorem splitRegion_spec (hr : r.Balanced) {q : SelRegion} (hq : RegionOk r q) (he : EndsLine r.text q) {sel : Selection}
    (h : Selection.Inv (sel ++ linesOfRegion r.text q)) : View.splitRegion r sel q = some (sel ++ linesOfRegion r.text q) := by
  unfold View.splitRegion linesOfRegion SelRegion.isCaret
  unfold linesOfRegion at h
  by_cases hc : q.start = q.stop
  · rw [if_pos hc] at h ⊢
    rw [if_pos (by simpa using hc)]
    have : q.hi = q.stop := by simp only [SelRegion.hi]; omega
    rw [this, add_after h]
  · rw [if_neg hc] at h ⊢
    rw [if_neg (by simpa using hc)]
    obtain ⟨c, pre, l, post, e1, e2, e3, e4⟩ := Cursor.new_spec hr (boundary_le hq.lo)
    simp only [e1, Option.bind_eq_bind, Option.bind_some]
    have hend : LineBoundary r.text q.hi ∨ q.hi = r.text.length := by
      rcases he with h | h
      · exact absurd h hc
      · exact h
    have := splitLoop_spec hr (boundary_le hq.hi) hend (r.len + 1) sel e2 e3 (by rw [Rope.len_eq hr]; omega) (by rw [e4]; exact h)
    rw [this, e4]

theorem splitAll_spec (hr : r.Balanced) : ∀ (s sel : Selection), (∀ q ∈ s, RegionOk r q ∧ EndsLine r.text q) → Selection.Inv (sel ++ s.flatMap (linesOfRegion r.text)) →
    s.foldlM (View.splitRegion r) sel = some (sel ++ s.flatMap (linesOfRegion r.text))
  | [], sel, _, _ => by simp
  | q :: s, sel, hs, h => by
    have h1 : Selection.Inv (sel ++ linesOfRegion r.text q ++ s.flatMap (linesOfRegion r.text)) := by simpa using h
    have h2 : Selection.Inv (sel ++ linesOfRegion r.text q) := (List.pairwise_append.1 h1).1
    obtain ⟨k1, k2⟩ := hs q (by simp)
    simp only [List.foldlM_cons, splitRegion_spec hr k1 k2 h2, Option.bind_eq_bind, Option.bind_some]
    rw [splitAll_spec hr s _ (fun x hx => hs x (by simp [hx])) h1]
    simp

theorem split_inv (hr : r.Balanced) : ∀ (s : Selection), Selection.Inv s → (∀ q ∈ s, RegionOk r q ∧ EndsLine r.text q) → Selection.Inv (s.flatMap (linesOfRegion r.text))
  | [], _, _ => by simp [Selection.Inv]
  | q :: s, h, hs => by
    have h' := h
    unfold Selection.Inv at h'
    rw [List.pairwise_cons] at h'
    have ih := split_inv hr s h'.2 (fun x hx => hs x (by simp [hx]))
    obtain ⟨k1, k2, k3⟩ := linesOfRegion_spec hr (hs q (by simp)).1 (hs q (by simp)).2
    rw [List.flatMap_cons]
    unfold Selection.Inv
    rw [List.pairwise_append]
    refine ⟨k1, ih, fun x hx y hy => ?_⟩
    obtain ⟨p, hp, hy⟩ := List.mem_flatMap.1 hy
    have hb := h'.1 p hp
    obtain ⟨m1, m2, m3⟩ := linesOfRegion_spec hr (hs p (by simp [hp])).1 (hs p (by simp [hp])).2
    have hx' := k3 x hx
    have hy' := m3 y hy
    refine ⟨by have := hb.1; omega, fun _ => ?_⟩
    have h1 := hb.1
    have h2 := hb.2
    by_cases hq : q.start = q.stop
    · have := h2 (.inl hq)
      omega
    · by_cases hp' : p.start = p.stop
      · have := h2 (.inr hp')
        omega
      · rcases Nat.lt_or_ge x.hi q.hi with hlt | hge
        · omega
        · have := (hx'.2.2.2 (by omega) hq).2
          have h4 := boundary_le (hs p (by simp [hp])).1.hi
          have : p.lo < p.hi := by simp only [SelRegion.lo, SelRegion.hi]; omega
          omega

/-- **C78** (in part). Splitting the selection into lines gives the lines of its regions, if the
regions end at ends of lines; for others see `C78_split_refuted`. -/
theorem C78_split_partial (hf : Fits g ls r) (hv : Good r v) (he : ∀ q ∈ v.selection, EndsLine r.text q) :
    ∃ v', v.splitIntoLines ls r = some v' ∧ v'.selection = v.selection.flatMap (linesOfRegion r.text) ∧ v'.firstLine = v.firstLine ∧ Good r v' := by
  have hr := hf.text
  have hs : ∀ q ∈ v.selection, RegionOk r q ∧ EndsLine r.text q := fun q hq => ⟨hv.selection.ok q hq, he q hq⟩
  have hi := split_inv hr v.selection hv.selection.inv hs
  have hval : Valid r (v.selection.flatMap (linesOfRegion r.text)) := by
    refine ⟨?_, hi, fun x hx => ?_⟩
    · obtain ⟨q, s, h0⟩ := List.exists_cons_of_ne_nil hv.selection.some
      rw [h0, List.flatMap_cons]
      obtain ⟨h1, h2⟩ := hs q (by rw [h0]; simp)
      intro h
      exact (linesOfRegion_spec hr h1 h2).2.1 (List.append_eq_nil_iff.1 h).1
    · obtain ⟨q, hq, hx⟩ := List.mem_flatMap.1 hx
      exact ((linesOfRegion_spec hr (hs q hq).1 (hs q hq).2).2.2 x hx).1
  obtain ⟨v', f1, f2, f3, f4, f5, f6⟩ := setRaw_good hf hv hval
  refine ⟨v', ?_, f2, f4, f6⟩
  have := splitAll_spec hr v.selection [] hs (by simpa using hi)
  rw [List.nil_append] at this
  simp only [View.splitIntoLines, this, Option.bind_eq_bind, Option.bind_some, f1]

/-! ## Other events -/

/-- **C78.** `select_all` selects the text and does not scroll. -/
theorem C78_select_all (hf : Fits g ls r) (hv : Good r v) :
    ∃ v', v.selectAll ls r = some v' ∧ v'.selection = [.new 0 r.text.length] ∧ v'.firstLine = v.firstLine ∧ v'.drag = v.drag ∧ Good r v' := by
  have hr := hf.text
  obtain ⟨v', f1, f2, f3, f4, -, f5⟩ := setRaw_good hf hv (sel := [.new 0 r.text.length])
    (Valid.single ⟨rope_boundary_zero hr, rope_boundary_length hr, rfl⟩)
  exact ⟨v', by rw [View.selectAll, Rope.len_eq hr]; exact f1, f2, f4, f3, f5⟩

/-- **C78.** `collapse_selections` leaves the cursor of the first region. -/
theorem C78_collapse (hf : Fits g ls r) (hv : Good r v) {q : SelRegion} {rest : Selection} (hs : v.selection = q :: rest) :
    ∃ v', v.collapseSelections ls r = some v' ∧ v'.selection = [{ q with start := q.stop }] ∧
      (∃ n, LineOf ls r q.stop n ∧ ScrolledTo v.firstLine v.height n v'.firstLine) ∧ Good r v' := by
  have hq := hv.selection.ok q (by rw [hs]; simp)
  have hval : Valid r [{ q with start := q.stop }] := Valid.single ⟨hq.stop, hq.stop, hq.down⟩
  obtain ⟨v', f1, f2⟩ := set_eq hf hv hval
  refine ⟨v', ?_, f2.selection, ?_, f2.good hv hval⟩
  · simp only [View.collapseSelections, hs, Selection.collapse, Option.bind_eq_bind, Option.bind_some, f1]
  · obtain ⟨q', n, h1, h2, h3, -⟩ := f2.screen
    simp only [List.getLast?_singleton, Option.some.injEq] at h1
    subst h1
    exact ⟨n, h2, h3⟩

/-- A line and a column lead to a place in the text. -/
theorem place_spec (hf : Fits g ls r) (line col : Nat) : ∃ p, ls.lines.lineColToOffset g r line col = some p ∧ CharBoundary r.text p ∧
    (line < (screenStarts ls r).length → PlaceAt g r.text (screenStarts ls r) line col p) ∧ ((screenStarts ls r).length ≤ line → p = r.text.length) := by
  have hr := hf.text
  obtain ⟨h1, h2⟩ := hf.lines
  rcases Nat.lt_or_ge line (screenStarts ls r).length with h | h
  · obtain ⟨p, e1, e2⟩ := C69_line_col_to_offset hr hf.graphemes h1 h col
    exact ⟨p, e1, place_boundary (Rope.text_utf8 hr) hf.graphemes e2, fun _ => e2, fun h' => absurd h (by omega)⟩
  · exact ⟨_, C69_line_col_beyond hr h1 h2 h col, rope_boundary_length hr, fun h' => absurd h (by omega), fun _ => rfl⟩

/-- **C78.** A gesture is about the place of its line and column. -/
theorem C78_gesture_place (hf : Fits g ls r) (v : View) (line col : Nat) (ty : GestureType) : ∃ p, CharBoundary r.text p ∧
    (line < (screenStarts ls r).length → PlaceAt g r.text (screenStarts ls r) line col p) ∧ ((screenStarts ls r).length ≤ line → p = r.text.length) ∧
    v.doGesture g ls r line col ty = match (ty : GestureType) with
      | .select granularity multi => v.select ls r p granularity multi
      | .selectExtend granularity => v.extendSelection ls r p granularity
      | .drag => v.doDrag ls r p
      | _ => some v := by
  obtain ⟨p, h1, h2, h3, h4⟩ := place_spec hf line col
  refine ⟨p, h2, h3, h4, ?_⟩
  simp only [View.doGesture, h1, Option.bind_eq_bind, Option.bind_some]
  rfl

/-- **C78.** `goto_line` puts one caret at the start of the line and makes it visible. -/
theorem C78_goto_line (hf : Fits g ls r) (hv : Good r v) {line s : Nat} (hs : (screenStarts ls r)[line]? = some s) (hb : g.boundary r.text s = true) :
    ∃ v', v.gotoLine g ls r line = some v' ∧ v'.selection = [.caret s] ∧ ScrolledTo v.firstLine v.height line v'.firstLine ∧ v'.drag = v.drag ∧ Good r v' := by
  have hr := hf.text
  have hlen := (List.getElem?_eq_some_iff.1 hs).1
  obtain ⟨h1, h2⟩ := hf.lines
  obtain ⟨p, e1, e2, e3, -⟩ := place_spec hf line 0
  have hlt : ∀ e, (screenStarts ls r)[line + 1]? = some e → s < e := fun e he => get_lt h1.sorted (Nat.lt_succ_self _) hs he
  obtain ⟨f1, f2⟩ := C69_place_on_line hs hlt hb (boundary_le (hf.graphemes.char _ _ (Rope.text_utf8 hr) hb)) (e3 hlen)
  have hps : p = s := by have := f1.le; omega
  subst hps
  have hval : Valid r [.caret p] := Valid.single ⟨e2, e2, rfl⟩
  obtain ⟨v', g1, g2⟩ := set_eq hf hv hval
  refine ⟨v', by simp only [View.gotoLine, e1, Option.bind_eq_bind, Option.bind_some, g1], g2.selection, ?_, g2.drag, g2.good hv hval⟩
  obtain ⟨q, n, k1, k2, k3, -⟩ := g2.screen
  simp only [List.getLast?_singleton, Option.some.injEq] at k1
  subst k1
  have : n = line := LineOf.unique hf k2 ⟨p, f1⟩
  rw [← this]
  exact k3

/-! ## The invariant is kept -/

theorem fold_moves {f : SelRegion → Option SelRegion} : ∀ (s sel : Selection), Selection.Inv sel → (∀ q ∈ sel, RegionOk r q) →
    (∀ q ∈ s, ∃ y, f q = some y ∧ RegionOk r y) → (sel ≠ [] ∨ s ≠ []) →
    ∃ s', s.foldlM (fun a q => do Selection.addRegion a (← f q)) sel = some s' ∧ Valid r s'
  | [], sel, h1, h2, _, h4 => ⟨sel, rfl, by simpa using h4, h1, h2⟩
  | q :: s, sel, h1, h2, h3, _ => by
    obtain ⟨y, e1, e2⟩ := h3 q (by simp)
    obtain ⟨s', f1, f2, -⟩ := add_ok h1 h2 e2
    obtain ⟨s'', g1, g2⟩ := fold_moves (f := f) s s' f2.inv f2.ok (fun x hx => h3 x (by simp [hx])) (.inl f2.some)
    exact ⟨s'', by simp only [List.foldlM_cons, e1, Option.bind_eq_bind, Option.bind_some, f1]; exact g1, g2⟩

theorem fold_addMoved {height : Nat} {m : Movement} : ∀ (s sel : Selection), Selection.Inv sel → (∀ q ∈ sel, RegionOk r q) →
    (∀ q ∈ s, RegionOk r q ∧ ∃ y, Movement.regionMovement g m q ls.lines height r false = some y ∧ RegionOk r y) → (sel ≠ [] ∨ s ≠ []) →
    ∃ s', s.foldlM (View.addMoved g ls r height m) sel = some s' ∧ Valid r s' ∧ (∀ q ∈ sel, ∃ R ∈ s', Within q R) ∧
      ∀ q ∈ s, (∃ R ∈ s', Within q R) ∧ ∀ y, Movement.regionMovement g m q ls.lines height r false = some y → ∃ R ∈ s', Within y R
  | [], sel, h1, h2, _, h4 => ⟨sel, rfl, ⟨by simpa using h4, h1, h2⟩, fun q hq => ⟨q, hq, by simp [Within]⟩, by simp⟩
  | q :: s, sel, h1, h2, h3, _ => by
    obtain ⟨e0, y, e1, e2⟩ := h3 q (by simp)
    obtain ⟨s₁, f1, f2, -, f3⟩ := add_ok h1 h2 e0
    obtain ⟨s₂, f1', f2', -, f3'⟩ := add_ok f2.inv f2.ok e2
    obtain ⟨s'', g1, g2, g3, g4⟩ := fold_addMoved (height := height) (m := m) s s₂ f2'.inv f2'.ok (fun x hx => h3 x (by simp [hx])) (.inl f2'.some)
    have trans : ∀ {a b c : SelRegion}, Within a b → Within b c → Within a c := fun h h' => by simp only [Within] at *; omega
    have up : ∀ x, (∃ R ∈ s₂, Within x R) → ∃ R ∈ s'', Within x R := by
      rintro x ⟨R, hR, hx⟩
      obtain ⟨R', hR', hw⟩ := g3 R hR
      exact ⟨R', hR', trans hx hw⟩
    have w1 := C32_add_within h1 f1
    have w2 := C32_add_within f2.inv f1'
    have up₁ : ∀ x, (∃ R ∈ s₁, Within x R) → ∃ R ∈ s₂, Within x R := by
      rintro x ⟨R, hR, hx⟩
      obtain ⟨R', hR', hw⟩ := w2.2 R hR
      exact ⟨R', hR', trans hx hw⟩
    refine ⟨s'', ?_, g2, fun x hx => up _ (up₁ _ (w1.2 x hx)), fun x hx => ?_⟩
    · simp only [List.foldlM_cons, View.addMoved, e1, Option.bind_eq_bind, Option.bind_some, f1, f1']
      exact g1
    · rcases List.mem_cons.1 hx with rfl | hx
      · refine ⟨up _ (up₁ _ w1.1), fun z hz => ?_⟩
        rw [e1] at hz
        injection hz with hz
        subst hz
        exact up _ w2.1
      · exact g4 x hx

/-- The event can be handled without a panic, and a scroll leaves some lines on the screen. -/
def Event.Safe (ls : Wrapping) (r : Rope) (v : View) : Event → Prop
  | .move m => ∀ q ∈ v.selection, m.Safe (screenStarts ls r) r.text.length q false
  | .modifySelection m => ∀ q ∈ v.selection, m.Safe (screenStarts ls r) r.text.length q true
  | .scroll first last => max first 0 < max last 0
  | .addSelectionAbove => ∀ q ∈ v.selection, Movement.upExactPosition.Safe (screenStarts ls r) r.text.length q false
  | .addSelectionBelow => ∀ q ∈ v.selection, Movement.downExactPosition.Safe (screenStarts ls r) r.text.length q false
  | .selectionIntoLines => ∀ q ∈ v.selection, EndsLine r.text q
  | _ => True

theorem region_ok (hf : Fits g ls r) {q : SelRegion} (hq : RegionOk r q) (m : Movement) (height : Nat) (modify : Bool)
    (hs : m.Safe (screenStarts ls r) r.text.length q modify) : ∃ y, Movement.regionMovement g m q ls.lines height r modify = some y ∧ RegionOk r y := by
  obtain ⟨h1, h2⟩ := hf.lines
  obtain ⟨p, h, e1, -, e3⟩ := C69_region_partial hf.text hf.graphemes h1 h2 m hq.start hq.stop height modify hs
  refine ⟨_, e1, ?_, e3, rfl⟩
  show CharBoundary r.text (if modify then q.start else p)
  split
  · exact hq.start
  · exact e3

theorem move_good (hf : Fits g ls r) (hv : Good r v) (m : Movement) (modify : Bool)
    (hs : ∀ q ∈ v.selection, m.Safe (screenStarts ls r) r.text.length q modify) :
    ∃ v' sel, v.doMove g ls r m modify = some v' ∧ Movement.selectionMovement g m v.selection ls.lines v.height r modify = some sel ∧ v'.selection = sel ∧
      v'.drag = none ∧ (∃ q n, sel.getLast? = some q ∧ LineOf ls r q.stop n ∧ ScrolledTo v.firstLine v.height n v'.firstLine) ∧ Good r v' := by
  obtain ⟨sel, e1, e2⟩ := fold_moves (r := r) (f := fun q => Movement.regionMovement g m q ls.lines v.height r modify) v.selection []
    (by simp [Selection.Inv]) (by simp) (fun q hq => region_ok hf (hv.selection.ok q hq) m _ _ (hs q hq)) (.inr hv.selection.some)
  have hgood : Good r { v with drag := none } := ⟨hv.selection, by simp, hv.height⟩
  obtain ⟨v', f1, f2⟩ := set_eq hf hgood e2
  have e1' : Movement.selectionMovement g m v.selection ls.lines v.height r modify = some sel := e1
  refine ⟨v', sel, ?_, e1', f2.selection, f2.drag, ?_, f2.good hgood e2⟩
  · simp only [View.doMove, e1', Option.bind_eq_bind, Option.bind_some, f1]
  · obtain ⟨q, n, k1, k2, k3, -⟩ := f2.screen
    exact ⟨q, n, k1, k2, k3⟩

/-- **C78.** A movement moves every region (see C69), ends a drag, and the cursor of the last
region is then on the screen. -/
theorem C78_move (hf : Fits g ls r) (hv : Good r v) (m : Movement) (modify : Bool)
    (hs : ∀ q ∈ v.selection, m.Safe (screenStarts ls r) r.text.length q modify) :
    ∃ v' moved, v.doMove g ls r m modify = some v' ∧
      v.selection.mapM (fun q => Movement.regionMovement g m q ls.lines v.height r modify) = some moved ∧
      (∀ k, Has v'.selection k ↔ ∃ q ∈ moved, q.lo ≤ k ∧ k < q.hi) ∧ (∀ q ∈ moved, ∃ R ∈ v'.selection, Within q R) ∧
      v'.drag = none ∧ (∃ q n, v'.selection.getLast? = some q ∧ LineOf ls r q.stop n ∧ ScrolledTo v.firstLine v.height n v'.firstLine) ∧ Good r v' := by
  obtain ⟨h1, h2⟩ := hf.lines
  obtain ⟨v', sel, e1, e2, e3, e4, e5, e6⟩ := move_good hf hv m modify hs
  obtain ⟨moved, s', f1, f2, -, f4, f5, -⟩ := C69_selection_partial hf.text hf.graphemes h1 h2 m (s := v.selection)
    (fun q hq => ⟨(hv.selection.ok q hq).start, (hv.selection.ok q hq).stop⟩) v.height modify hs
  rw [e2] at f2
  injection f2 with f2
  subst f2
  rw [← e3] at f4 f5 e5
  exact ⟨v', moved, e1, f1, f4, f5, e4, e5, e6⟩

/-- **C78.** "Add selection above" (or below) keeps every region and adds the one a movement
leads to. -/
theorem C78_add_selection (hf : Fits g ls r) (hv : Good r v) (m : Movement) (hs : ∀ q ∈ v.selection, m.Safe (screenStarts ls r) r.text.length q false) :
    ∃ v', v.addSelectionByMovement g ls r m = some v' ∧ v'.drag = v.drag ∧ (∀ q ∈ v.selection, (∃ R ∈ v'.selection, Within q R) ∧
      ∃ y, Movement.regionMovement g m q ls.lines v.height r false = some y ∧ ∃ R ∈ v'.selection, Within y R) ∧ Good r v' := by
  obtain ⟨sel, e1, e2, -, e4⟩ := fold_addMoved (g := g) (ls := ls) (r := r) (height := v.height) (m := m) v.selection [] (by simp [Selection.Inv]) (by simp)
    (fun q hq => ⟨hv.selection.ok q hq, region_ok hf (hv.selection.ok q hq) m _ _ (hs q hq)⟩) (.inr hv.selection.some)
  obtain ⟨v', f1, f2⟩ := set_eq hf hv e2
  refine ⟨v', by simp only [View.addSelectionByMovement, e1, Option.bind_eq_bind, Option.bind_some, f1], f2.drag, fun q hq => ?_, f2.good hv e2⟩
  rw [f2.selection]
  obtain ⟨y, h1, -⟩ := region_ok (g := g) hf (hv.selection.ok q hq) m v.height false (hs q hq)
  exact ⟨(e4 q hq).1, y, h1, (e4 q hq).2 y h1⟩

theorem select_good (hf : Fits g ls r) (hv : Good r v) {o : Nat} (ho : CharBoundary r.text o) (gr : Granularity) (multi : Bool) :
    ∃ v', v.select ls r o gr multi = some v' ∧ Good r v' := by
  obtain ⟨s, e, v', -, -, -, h4, -, h6⟩ := selectUnit_spec hf hv ho gr multi
  by_cases hc : multi = true ∧ gr = .point
  · obtain ⟨A, l, B, h1, h2, -⟩ := C32_range_partial hv.selection.inv (Nat.le_refl o)
    obtain ⟨A', l', B', k1, k2, -⟩ := C32_delete_adjacent_partial hv.selection.inv (Nat.le_refl o)
    unfold View.select
    rw [if_pos hc]
    unfold View.deselectAtOffset
    simp only [h2, k2, Option.bind_eq_bind, Option.bind_some]
    by_cases c1 : l.isEmpty
    · rw [if_pos c1]
      exact ⟨v', by simpa using h4, h6⟩
    · rw [if_neg c1]
      by_cases c2 : (A' ++ B').isEmpty
      · rw [if_pos c2]
        exact ⟨v', by simpa using h4, h6⟩
      · rw [if_neg c2]
        have hval : Valid r (A' ++ B') := by
          have hsub : (A' ++ B').Sublist v.selection := by
            rw [k1, List.append_assoc]
            exact (List.Sublist.refl A').append (List.sublist_append_right l' B')
          exact ⟨by simpa using c2, List.Pairwise.sublist hsub hv.selection.inv, fun x hx => hv.selection.ok x (hsub.subset hx)⟩
        obtain ⟨w, f1, -, -, -, -, f6⟩ := setRaw_good hf (v := { v with drag := none }) ⟨hv.selection, by simp, hv.height⟩ hval
        exact ⟨w, by simp [f1], f6⟩
  · unfold View.select
    rw [if_neg hc]
    exact ⟨v', h4, h6⟩

theorem gesture_good (hf : Fits g ls r) (hv : Good r v) (line col : Nat) (ty : GestureType) : ∃ v', v.doGesture g ls r line col ty = some v' ∧ Good r v' := by
  obtain ⟨p, h1, -, -, h2⟩ := C78_gesture_place hf v line col ty
  rw [h2]
  cases ty with
  | select gr multi => exact select_good hf hv h1 gr multi
  | selectExtend gr =>
    obtain ⟨_, _, _, v', -, -, h3, -, -, -, h4⟩ := C78_extend hf hv (rest := v.selection.dropLast) (last := v.selection.getLast hv.selection.some)
      (List.dropLast_concat_getLast _).symm h1 gr
    exact ⟨v', h3, h4⟩
  | drag =>
    show ∃ v', v.doDrag ls r p = some v' ∧ Good r v'
    cases hd : v.drag with
    | none => exact ⟨v, by simp [View.doDrag, hd], hv⟩
    | some d =>
      obtain ⟨_, _, _, v', -, -, h3, -, h4⟩ := C78_drag hf hv hd h1
      exact ⟨v', h3, h4⟩
  | _ => exact ⟨v, rfl, hv⟩

/-- **C78** (in part). Every event is handled without a panic and keeps the invariant of the view,
apart from those that are not `Safe`; for these see the refutations below. -/
theorem C78_keeps_partial (hf : Fits g ls r) (hv : Good r v) (e : Event) (hs : e.Safe ls r v) : ∃ v', v.doEdit g ls r e = some v' ∧ Good r v' := by
  cases e with
  | move m => obtain ⟨v', _, h1, -, -, -, -, h2⟩ := move_good hf hv m false hs; exact ⟨v', h1, h2⟩
  | modifySelection m => obtain ⟨v', _, h1, -, -, -, -, h2⟩ := move_good hf hv m true hs; exact ⟨v', h1, h2⟩
  | selectAll => obtain ⟨v', h1, -, -, -, h2⟩ := C78_select_all hf hv; exact ⟨v', h1, h2⟩
  | scroll first last =>
    have hs : max first 0 < max last 0 := hs
    refine ⟨{ v with firstLine := (max first 0).toNat, height := (max last 0).toNat - (max first 0).toNat }, ?_, hv.selection, hv.drag, ?_⟩
    · simp only [View.doEdit, View.setScroll]
      rw [if_pos (by omega)]
    · show 0 < (max last 0).toNat - (max first 0).toNat
      omega
  | addSelectionAbove => obtain ⟨v', h1, -, -, h2⟩ := C78_add_selection hf hv .upExactPosition hs; exact ⟨v', h1, h2⟩
  | addSelectionBelow => obtain ⟨v', h1, -, -, h2⟩ := C78_add_selection hf hv .downExactPosition hs; exact ⟨v', h1, h2⟩
  | gesture line col ty => exact gesture_good hf hv line col ty
  | gotoLine line =>
    obtain ⟨p, e1, e2, -⟩ := place_spec hf line 0
    have hval : Valid r [.caret p] := Valid.single ⟨e2, e2, rfl⟩
    obtain ⟨v', g1, g2⟩ := set_eq hf hv hval
    exact ⟨v', by simp only [View.doEdit, View.gotoLine, e1, Option.bind_eq_bind, Option.bind_some, g1], g2.good hv hval⟩
  | click line col flags count => exact gesture_good hf hv line col _
  | drag line col => exact gesture_good hf hv line col .drag
  | collapseSelections =>
    obtain ⟨q, s, h0⟩ := List.exists_cons_of_ne_nil hv.selection.some
    obtain ⟨v', h1, -, -, h2⟩ := C78_collapse hf hv h0
    exact ⟨v', h1, h2⟩
  | selectionIntoLines => obtain ⟨v', h1, -, -, h2⟩ := C78_split_partial hf hv hs; exact ⟨v', h1, h2⟩

/-- **C78** (in part). The same for a whole session: from a new view on, there is always a
non-empty, sorted selection in the text. -/
theorem C78_session_partial (hf : Fits g ls r) : ∀ (es : List Event) {v : View}, Good r v →
    (∀ pre e post w, es = pre ++ e :: post → pre.foldlM (fun v e => View.doEdit g ls r v e) v = some w → e.Safe ls r w) →
    ∃ v', es.foldlM (fun v e => View.doEdit g ls r v e) v = some v' ∧ Good r v'
  | [], v, hv, _ => ⟨v, rfl, hv⟩
  | e :: es, v, hv, hs => by
    obtain ⟨w, h1, h2⟩ := C78_keeps_partial hf hv e (hs [] e es v rfl rfl)
    obtain ⟨v', h3, h4⟩ := C78_session_partial hf es h2 fun pre e' post x he hx => hs (e :: pre) e' post x (by simp [he]) (by simp [h1, hx])
    exact ⟨v', by simp [h1, h3], h4⟩

theorem new_good (hr : r.Balanced) : Good r View.new :=
  ⟨Valid.single ⟨rope_boundary_zero hr, rope_boundary_zero hr, rfl⟩, by simp [View.new], by simp [View.new]⟩

end

/-! ## Examples and refutations -/

/-- No wrapping. -/
def noWrap (r : Rope) : Wrapping := ⟨false, Breaks.newNoBreak r.text.length⟩

theorem noWrap_fits {r : Rope} (hr : r.Balanced) : Fits plainGraphemes (noWrap r) r :=
  ⟨newNoBreak_agree hr, fun _ k hk => by
    have hk : BreakAt (Breaks.newNoBreak r.text.length).text k := hk
    rw [newNoBreak_text] at hk
    exact breakAt_blank _ _ hk, plainGraphemes_ok⟩

/-- A view with a selection. -/
def viewOf (s : Selection) : View := { View.new with selection := s }

/-- The regions of a view, without the details. -/
def regions (v : Option View) : Option (List (Nat × Nat)) := v.map fun v => v.selection.map fun q => (q.start, q.stop)

/-- A region of a small text. -/
theorem small_region {s : String} {a b : Nat} (ha : isCharBoundary (s.toList.flatMap String.utf8EncodeChar) a = true)
    (hb : isCharBoundary (s.toList.flatMap String.utf8EncodeChar) b = true) : RegionOk (smallRope s) (.new a b) :=
  ⟨small_boundary ha, small_boundary hb, rfl⟩

theorem viewOf_good {r : Rope} {s : Selection} (h : Valid r s) : Good r (viewOf s) := ⟨h, by simp [viewOf, View.new], by simp [viewOf, View.new]⟩

/-- A text for the examples. -/
def gestureText : Rope := smallRope "foo bar\nbaz\nqux"

theorem gestureText_balanced : gestureText.Balanced := small_balanced (by decide +kernel)

/-- The hypotheses of the theorems are met, and this is what they speak of: a click, a double
click, a drag and an extension by lines. -/
example : Fits plainGraphemes (noWrap gestureText) gestureText ∧ Good gestureText View.new ∧
    regions (View.new.select (noWrap gestureText) gestureText 5 .point false) = some [(5, 5)] ∧
    regions (View.new.select (noWrap gestureText) gestureText 5 .word false) = some [(4, 7)] ∧
    regions ((View.new.select (noWrap gestureText) gestureText 5 .word false).bind fun v => v.doDrag (noWrap gestureText) gestureText 9) = some [(4, 11)] ∧
    regions ((View.new.select (noWrap gestureText) gestureText 5 .word false).bind fun v => v.doDrag (noWrap gestureText) gestureText 2) = some [(7, 0)] ∧
    regions ((View.new.select (noWrap gestureText) gestureText 5 .point true).bind fun v => v.extendSelection (noWrap gestureText) gestureText 9 .line) =
      some [(0, 0), (5, 12)] ∧
    regions ((viewOf [.new 2 15]).splitIntoLines (noWrap gestureText) gestureText) = some [(2, 7), (8, 11), (12, 15)] ∧
    EndsLine gestureText.text (.new 2 15) :=
  ⟨noWrap_fits gestureText_balanced, new_good gestureText_balanced, by decide +kernel, by decide +kernel, by decide +kernel, by decide +kernel,
    by decide +kernel, by decide +kernel, .inr (.inr (by decide +kernel))⟩

/-- A session that meets the hypotheses of `C78_session_partial`. -/
example : regions ([.gesture 0 5 (.select .word false), .drag 1 2, .gesture 2 1 (.select .point true), .modifySelection .right, .addSelectionAbove,
    .collapseSelections].foldlM (fun v e => View.doEdit plainGraphemes (noWrap gestureText) gestureText v e) View.new) = some [(12, 12)] := by
  decide +kernel

/-- **C78, refuted.** If a region does not end at the end of a line, splitting it into lines loses
its last character (the end is taken for the place after a newline, view.rs:549-550). -/
theorem C78_split_loses_refuted : ∃ (r : Rope) (s s' : Selection), r.Balanced ∧ Good r (viewOf s) ∧ Has s 4 ∧ r.text[4]? ≠ some newline ∧
    ((viewOf s).splitIntoLines (noWrap r) r).map (·.selection) = some s' ∧ ¬ Has s' 4 := by
  refine ⟨smallRope "ab\ncd\nef", [.new 0 5], [.new 0 2, .new 3 4], small_balanced (by decide +kernel),
    viewOf_good (Valid.single (small_region (by decide +kernel) (by decide +kernel))), ⟨.new 0 5, by simp, by decide +kernel, by decide +kernel⟩,
    by decide +kernel, by decide +kernel, ?_⟩
  simp [Has, SelRegion.new, SelRegion.lo, SelRegion.hi]

/-- **C78, refuted.** On the last line, if there is no newline after it, the split selects text
that was not selected (view.rs:552). -/
theorem C78_split_grows_refuted : ∃ (r : Rope) (s s' : Selection), r.Balanced ∧ Good r (viewOf s) ∧ ¬ Has s 2 ∧
    ((viewOf s).splitIntoLines (noWrap r) r).map (·.selection) = some s' ∧ Has s' 2 := by
  refine ⟨smallRope "abc", [.new 0 1], [.new 0 3], small_balanced (by decide +kernel),
    viewOf_good (Valid.single (small_region (by decide +kernel) (by decide +kernel))), ?_, by decide +kernel, ⟨.new 0 3, by simp, by decide +kernel, by decide +kernel⟩⟩
  simp [Has, SelRegion.new, SelRegion.lo, SelRegion.hi]

/-- **C78, refuted.** The last character that is lost may be half a character: then there is a
panic. -/
theorem C78_split_panics_refuted : ∃ (r : Rope) (s : Selection), r.Balanced ∧ Good r (viewOf s) ∧ (viewOf s).splitIntoLines (noWrap r) r = none := by
  exact ⟨smallRope "é\n", [.new 0 2], small_balanced (by decide +kernel),
    viewOf_good (Valid.single (small_region (by decide +kernel) (by decide +kernel))), by decide +kernel⟩

/-- **C78, refuted.** A scroll to a range whose end is before its start is a panic
(view.rs:333). -/
theorem C78_scroll_refuted (v : View) : v.setScroll 5 3 = none := rfl

/-- **C78, refuted.** After a scroll to an empty range, which is accepted, a movement of the cursor is a
panic (view.rs:347). -/
theorem C78_height_refuted : ∃ (r : Rope) (v : View), r.Balanced ∧ Good r View.new ∧ View.new.setScroll 0 0 = some v ∧
    v.doMove plainGraphemes (noWrap r) r .right false = none :=
  ⟨smallRope "abc", _, small_balanced (by decide +kernel), new_good (small_balanced (by decide +kernel)), rfl, by decide +kernel⟩

/-- **C78, refuted.** A legacy click without `FLAG_SELECT` does nothing: `do_gesture` no longer knows the
gestures it is turned into (view.rs:269-288 and 315). -/
theorem C78_click_refuted {g : Graphemes} {ls : Wrapping} {r : Rope} (hf : Fits g ls r) (v : View) (line col flags : Nat) (count : Option Nat)
    (h : flags &&& 2 = 0) : v.doEdit g ls r (.click line col flags count) = some v := by
  obtain ⟨p, -, -, -, e⟩ := C78_gesture_place hf v line col (View.clickGesture flags count)
  rw [View.doEdit, e]
  unfold View.clickGesture
  rw [if_neg (by simpa using h)]
  by_cases h2 : count = some 2
  · rw [if_pos h2]
  · rw [if_neg h2]
    by_cases h3 : count = some 3
    · rw [if_pos h3]
    · rw [if_neg h3]

/-- **C78.** With `FLAG_SELECT` it extends the selection. -/
theorem C78_shift_click {g : Graphemes} {ls : Wrapping} {r : Rope} (hf : Fits g ls r) (v : View) (line col flags : Nat) (count : Option Nat)
    (h : flags &&& 2 ≠ 0) : ∃ p, CharBoundary r.text p ∧ (line < (screenStarts ls r).length → PlaceAt g r.text (screenStarts ls r) line col p) ∧
      v.doEdit g ls r (.click line col flags count) = v.extendSelection ls r p .point := by
  obtain ⟨p, h1, h2, -, e⟩ := C78_gesture_place hf v line col (View.clickGesture flags count)
  refine ⟨p, h1, h2, ?_⟩
  rw [View.doEdit, e]
  unfold View.clickGesture
  rw [if_pos h]

/-- **C78.** The gestures of older front ends are translated when they come as gestures. -/
theorem C78_translate (line col : Nat) :
    Event.translate (.gesture line col .pointSelect) = .gesture line col (.select .point false) ∧
    Event.translate (.gesture line col .toggleSel) = .gesture line col (.select .point true) ∧
    Event.translate (.gesture line col .wordSelect) = .gesture line col (.select .word false) ∧
    Event.translate (.gesture line col .multiWordSelect) = .gesture line col (.select .word true) ∧
    Event.translate (.gesture line col .lineSelect) = .gesture line col (.select .line false) ∧
    Event.translate (.gesture line col .multiLineSelect) = .gesture line col (.select .line true) ∧
    Event.translate (.gesture line col .rangeSelect) = .gesture line col (.selectExtend .point) ∧
    Event.translate (.gesture line col .drag) = .gesture line col .drag :=
  ⟨rfl, rfl, rfl, rfl, rfl, rfl, rfl, rfl⟩

/-- **C78, refuted.** A click with "multi" where two regions touch takes out only the first: the
place is still selected. -/
theorem C78_deselect_refuted : ∃ (r : Rope) (s s' : Selection), r.Balanced ∧ Good r (viewOf s) ∧ TouchedAt s 2 ∧
    ((viewOf s).select (noWrap r) r 2 .point true).map (·.selection) = some s' ∧ s'.length < s.length ∧ TouchedAt s' 2 := by
  have h1 : RegionOk (smallRope "abcd") (.new 0 2) := small_region (by decide +kernel) (by decide +kernel)
  have h2 : RegionOk (smallRope "abcd") (.new 2 4) := small_region (by decide +kernel) (by decide +kernel)
  refine ⟨smallRope "abcd", [.new 0 2, .new 2 4], [.new 2 4], small_balanced (by decide +kernel), viewOf_good ⟨by simp, ?_, ?_⟩,
    ⟨.new 0 2, by simp, by decide +kernel, by decide +kernel⟩, by decide +kernel, by simp, ⟨.new 2 4, by simp, by decide +kernel, by decide +kernel⟩⟩
  · unfold Selection.Inv Before
    decide +kernel
  · simp [h1, h2]

/-- **C78, refuted.** A drag can leave what was selected by the click: a double click selects
[3, 5), and a drag to its start selects nothing. -/
theorem C78_drag_refuted : ∃ r : Rope, r.Balanced ∧ Good r View.new ∧ regions (View.new.select (noWrap r) r 4 .word false) = some [(3, 5)] ∧
    regions ((View.new.select (noWrap r) r 4 .word false).bind fun v => v.doDrag (noWrap r) r 3) = some [(3, 3)] :=
  ⟨smallRope "foo, bar", small_balanced (by decide +kernel), new_good (small_balanced (by decide +kernel)), by decide +kernel, by decide +kernel⟩

/-- **C78, refuted.** `goto_line` does not end a drag: the next drag selects from where the mouse was
pressed before. -/
theorem C78_stale_drag_refuted : ∃ v₁ v₂, View.new.select (noWrap gestureText) gestureText 5 .point false = some v₁ ∧
    v₁.gotoLine plainGraphemes (noWrap gestureText) gestureText 2 = some v₂ ∧ v₂.selection = [.caret 12] ∧
    regions (v₂.doDrag (noWrap gestureText) gestureText 14) = some [(5, 14)] := by
  obtain ⟨s, e, v₁, ⟨rfl, rfl⟩, h1, h2, h3, -, h5⟩ := C78_click (noWrap_fits gestureText_balanced) (new_good gestureText_balanced) (o := 5)
    (small_boundary (by decide +kernel)) .point
  obtain ⟨v₂, k1, k2, -, k4, k5⟩ := C78_goto_line (noWrap_fits gestureText_balanced) h5 (line := 2) (s := 12) (by decide +kernel) (by decide +kernel)
  obtain ⟨s, e, sel, v₃, ⟨rfl, rfl⟩, m2, m3, m4, -⟩ := C78_drag (noWrap_fits gestureText_balanced) k5 (d := ⟨[], 5, 5, .point⟩) (by rw [k4, h3]) (o := 14)
    (small_boundary (by decide +kernel))
  refine ⟨v₁, v₂, h1, k1, k2, ?_⟩
  rw [m3]
  rw [add_nil] at m2
  injection m2 with m2
  simp only [regions, Option.map_some, m4.selection, ← m2]
  decide

end Xi.Gesture
