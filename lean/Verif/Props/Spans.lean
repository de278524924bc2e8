import Verif.Rope.SpansExact
import Verif.Props.Delta

/-!
# Spans (rope/src/spans.rs): C36
-/

namespace Xi

variable {T O : Type}

theorem SpansTree.len_eq {n : SpansTree T} (h : n.Balanced) : n.len = n.text.length := by
  obtain ⟨k, hw⟩ := h; exact hw.len_eq

theorem SpansTree.addAll_spec (spans : List (Span T)) :
    ∀ {sb : SpansBuilder T} {n lo : Nat} {out : List (Span T)}, sb.Has n out → SpansIn 0 lo out → SpansIn lo n spans →
      ∃ sb', spans.foldlM (fun sb s => sb.addSpan s.iv s.data) sb = some sb' ∧ sb'.Has n (out ++ spans) := by
  induction spans with
  | nil => intro sb n lo out h _ _; exact ⟨sb, rfl, by simpa using h⟩
  | cons s rest ih =>
    intro sb n lo out h ho hr
    obtain ⟨h1, h2, h3, h4⟩ := hr
    obtain ⟨sb1, e1, a1, a2⟩ := SpansBuilder.addSpan_next (data := s.data) h ho h1 h2 h3
    obtain ⟨sb2, e2, a3⟩ := ih a1 a2 h4
    exact ⟨sb2, by simp [e1, e2], by simpa using a3⟩

theorem paint_nil (n : Nat) : paint n ([] : List (Span T)) = List.replicate n none := by
  apply List.ext_getElem?
  intro p
  rw [paint_get, List.getElem?_replicate, cellAt_nil]

theorem SpansTree.shape_loop {α : Type} {n : SpansTree T} (hn : n.Balanced) (els : List (DeltaElement α)) :
    ∀ {b : TreeBuilder (SpansLeaf T) SpansInfo} {t : List (Option T)} {lo : Nat}, b.Holds t → ElsWF n.text.length lo els →
      ∃ b', els.foldlM (shapeStep n) b = some b' ∧ b'.Holds (t ++ shapeCells n.text els) := by
  induction els with
  | nil => intro b t lo h _; exact ⟨b, rfl, by simpa [shapeCells] using h⟩
  | cons el els ih =>
    intro b t lo h hw
    cases el with
    | copy s e =>
      obtain ⟨h1, h2, h3⟩ := hw
      have he := h3.lo_le
      obtain ⟨m, e1, e2, k, e3⟩ := Node.subseq_spec (iv := ⟨s, e⟩) hn (fun _ => ⟨spans_cut (by simp only; omega), spans_cut he⟩)
      obtain ⟨b1, e4, e5⟩ := TreeBuilder.push_spec h e3
      obtain ⟨b2, e6, e7⟩ := ih e5 h3
      refine ⟨b2, ?_, ?_⟩
      · simp [shapeStep, Interval.new, Nat.le_of_lt h2, e1, e4, e6]
      · rw [e2] at e7
        simpa [shapeCells] using e7
    | insert s =>
      obtain ⟨m, e1, e2, k, e3⟩ := SpansBuilder.build_spec (SpansBuilder.has_new (T := T) s.length)
      obtain ⟨b1, e4, e5⟩ := TreeBuilder.push_spec h e3
      obtain ⟨b2, e6, e7⟩ := ih e5 hw.2
      refine ⟨b2, ?_, ?_⟩
      · simp [shapeStep, e1, e4, e6]
      · rw [e2, paint_nil] at e7
        simpa [shapeCells] using e7

theorem SpansTree.applyShape_spec {α : Type} {n : SpansTree T} (hn : n.Balanced) {d : Delta α} (hd : d.WF) (hl : d.baseLen = n.text.length) :
    ∃ m, n.applyShape d = some m ∧ m.Balanced ∧ m.text = shapeCells n.text d.els := by
  unfold Delta.WF at hd
  rw [hl] at hd
  obtain ⟨b, e1, e2⟩ := shape_loop hn d.els TreeBuilder.holds_new hd
  obtain ⟨m, e3, e4, e5⟩ := TreeBuilder.build_spec e2
  exact ⟨m, by simp [applyShape, e1, e3], e5, by rw [e4]; simp⟩

theorem SpansTree.eval_spec (e : SpansExpr T) : ∀ {r : List (Option T)}, e.Means r → ∃ n, e.eval = some n ∧ n.Balanced ∧ n.text = r := by
  induction e with
  | build len spans =>
    rintro r ⟨h1, rfl⟩
    obtain ⟨sb, e1, a⟩ := addAll_spec spans (SpansBuilder.has_new len) trivial h1
    obtain ⟨n, e2, t, w⟩ := SpansBuilder.build_spec a
    exact ⟨n, by simp [SpansExpr.eval, e1, e2], w, by simpa using t⟩
  | concat a b iha ihb =>
    rintro r ⟨x, y, hx, hy, rfl⟩
    obtain ⟨n, e1, ⟨j, w1⟩, t1⟩ := iha hx
    obtain ⟨m, e2, ⟨k, w2⟩, t2⟩ := ihb hy
    obtain ⟨c, e3, t3, w3⟩ := Node.concat_spec w1 w2
    refine ⟨c, by simp [SpansExpr.eval, e1, e2, e3], w3.elim (fun w => ⟨_, w⟩) (fun w => ⟨_, w⟩), by rw [t3, t1, t2]⟩
  | slice a iv iha =>
    rintro r ⟨x, hx, h1, h2, rfl⟩
    obtain ⟨n, e1, w1, rfl⟩ := iha hx
    obtain ⟨m, e2, t2, w2⟩ := Node.subseq_spec (iv := iv) w1 (fun _ => ⟨spans_cut (by omega), spans_cut h2⟩)
    exact ⟨m, by simp [SpansExpr.eval, e1, e2], w2, t2⟩
  | edit a iv new iha ihn =>
    rintro r ⟨x, y, hx, hy, h1, h2, rfl⟩
    obtain ⟨n, e1, w1, rfl⟩ := iha hx
    obtain ⟨k, e2, w2, rfl⟩ := ihn hy
    obtain ⟨m, e3, t3, w3⟩ := Node.edit_spec (iv := iv) w1 w2 (spans_cut (by omega)) (spans_cut h2)
    exact ⟨m, by simp [SpansExpr.eval, e1, e2, e3], w3, t3⟩
  | merge a b f iha ihb =>
    rintro r ⟨x, y, hx, hy, h1, rfl⟩
    obtain ⟨n, e1, w1, rfl⟩ := iha hx
    obtain ⟨k, e2, w2, rfl⟩ := ihb hy
    obtain ⟨m, e3, w3, t3⟩ := merge_spec f w1 w2 h1
    exact ⟨m, by simp [SpansExpr.eval, e1, e2, e3], w3, t3⟩
  | shape a d iha =>
    rintro r ⟨x, hx, h1, h2, rfl⟩
    obtain ⟨n, e1, w1, rfl⟩ := iha hx
    obtain ⟨m, e2, w2, t2⟩ := applyShape_spec w1 h1 h2
    exact ⟨m, by simp [SpansExpr.eval, e1, e2], w2, t2⟩

/-- **C36.** Whatever sequence of operations (build, concatenate, slice, edit,
merge, follow a delta) spans come from: none of them panics, the tree is
balanced, its cells are those that the same operations on plain sequences of
cells give, and iterating gives back non-empty disjoint spans in order that paint
exactly these cells. -/
theorem C36_spans (e : SpansExpr T) (r : List (Option T)) (h : e.Means r) :
    ∃ n spans, e.eval = some n ∧ n.Balanced ∧ n.len = r.length ∧ n.text = r ∧
      n.iter = some spans ∧ SpansIn 0 r.length spans ∧ paint r.length spans = r := by
  obtain ⟨n, e1, w, rfl⟩ := SpansTree.eval_spec e h
  obtain ⟨spans, i1, i2, i3⟩ := SpansTree.iter_spec w
  exact ⟨n, spans, e1, w, SpansTree.len_eq w, rfl, i1, i2, i3⟩

/-- **C36.** `merge`, with values of another type: the cell at every position is
the combination of the two cells there. -/
theorem C36_merge (f : T → Option T → O) (a b : SpansExpr T) (x y : List (Option T)) (ha : a.Means x) (hb : b.Means y)
    (hl : x.length = y.length) :
    ∃ na nb n spans, a.eval = some na ∧ b.eval = some nb ∧ na.merge nb f = some n ∧ n.Balanced ∧ n.iter = some spans ∧
      SpansIn 0 x.length spans ∧
      ∀ p, p < x.length → cellAt spans p = mergeCell f (x[p]?.join) (y[p]?.join) := by
  obtain ⟨na, e1, w1, rfl⟩ := SpansTree.eval_spec a ha
  obtain ⟨nb, e2, w2, rfl⟩ := SpansTree.eval_spec b hb
  obtain ⟨n, e3, w3, t3⟩ := SpansTree.merge_spec f w1 w2 hl
  obtain ⟨spans, i1, i2, i3⟩ := SpansTree.iter_spec w3
  have hlen : n.text.length = na.text.length := by rw [t3, List.length_zipWith]; omega
  refine ⟨na, nb, n, spans, e1, e2, e3, w3, i1, hlen ▸ i2, ?_⟩
  intro p hp
  have := paint_get n.text.length spans p
  rw [i3, t3, List.getElem?_zipWith, List.length_zipWith, if_pos (by omega), List.getElem?_eq_getElem hp,
    List.getElem?_eq_getElem (by omega)] at this
  simp only [Option.some.injEq] at this
  rw [← this, List.getElem?_eq_getElem hp, List.getElem?_eq_getElem (by omega)]
  rfl

/-- Two layers: a keyword in the first, an error mark across its end in the
second. -/
example : (SpansExpr.merge (.build 6 [⟨⟨1, 4⟩, 10⟩]) (.build 6 [⟨⟨3, 5⟩, 7⟩]) (fun a b => a + b.getD 0)).Means
    [none, some 10, some 10, some 17, some 7, none] :=
  ⟨_, _, ⟨by decide, rfl⟩, ⟨by decide, rfl⟩, by decide, by decide⟩

/-- A slice that cuts a span, and a delta that deletes and inserts. -/
example : (SpansExpr.shape (.slice (.build 6 [⟨⟨1, 4⟩, 10⟩]) ⟨2, 6⟩) ⟨[.copy 0 1, .insert [(), ()], .copy 2 4], 4⟩).Means
    [some 10, none, none, none, none] :=
  ⟨_, ⟨_, ⟨by decide, rfl⟩, by decide, by decide, rfl⟩, by decide, by decide, by decide⟩

/-- Spans as the list of what `iter` gives. -/
def SpansTree.Shows (n : SpansTree T) (len : Nat) (spans : List (Span T)) : Prop :=
  n.Balanced ∧ n.len = len ∧ n.iter = some spans ∧ SpansIn 0 len spans ∧ n.text = paint len spans

theorem SpansTree.shows {n : SpansTree T} (hb : n.Balanced) {spans : List (Span T)} (hi : n.iter = some spans) : n.Shows n.text.length spans := by
  obtain ⟨l, h1, h2, h3⟩ := SpansTree.iter_spec hb
  rw [hi, Option.some.injEq] at h1
  subst h1
  exact ⟨hb, SpansTree.len_eq hb, hi, h2, h3.symm⟩

/-- **C36.** A tree built from spans has these spans, neither cut nor joined. -/
theorem C36_build {len : Nat} {spans : List (Span T)} (h : SpansIn 0 len spans) : ∃ n, (SpansExpr.build len spans).eval = some n ∧ n.Shows len spans := by
  obtain ⟨sb, t, e1, e2, w, hl, hi⟩ := SpansTree.build_exact h
  have := SpansTree.shows w hi
  rw [hl] at this
  exact ⟨t, by simp [SpansExpr.eval, e1, e2], this⟩

/-- **C36.** Replacing an interval of spans that cuts none of them: the spans before and after it stay, moved, and the new ones come between them.  The
interval ends where the tree ends, if it goes on beyond it. -/
theorem C36_edit {n new : SpansTree T} {len len' : Nat} {l m : List (Span T)} (hn : n.Shows len l) (hm : new.Shows len' m) {iv : Interval} (hiv : iv.start ≤ iv.stop)
    (h1 : ∀ s ∈ l, s.iv.stop ≤ iv.start ∨ iv.start ≤ s.iv.start) (h2 : ∀ s ∈ l, s.iv.stop ≤ iv.stop ∨ iv.stop ≤ s.iv.start) :
    ∃ r, n.edit iv new = some r ∧ SpansTree.Shows r (min iv.start len + len' + (len - iv.stop))
      (l.filter (fun s => s.iv.stop ≤ iv.start) ++ m.map (fun s => ⟨⟨s.iv.start + min iv.start len, s.iv.stop + min iv.start len⟩, s.data⟩) ++
        (l.filter (fun s => iv.stop ≤ s.iv.start)).map (fun s => ⟨⟨s.iv.start - iv.stop + (min iv.start len + len'), s.iv.stop - iv.stop + (min iv.start len + len')⟩, s.data⟩)) := by
  obtain ⟨n1, n2, n3, n4, n5⟩ := hn
  obtain ⟨m1, m2, m3, m4, m5⟩ := hm
  have ln : n.text.length = len := by rw [n5, paint_length]
  have lm : new.text.length = len' := by rw [m5, paint_length]
  have ua : Uncut l (min iv.start len) := by
    intro s hs
    have := h1 s hs
    have := (n4.bounds s hs).2
    omega
  have ub : Uncut l (min iv.stop len) := by
    intro s hs
    have := h2 s hs
    have := (n4.bounds s hs).2
    omega
  obtain ⟨r, e1, w, t, hi⟩ := SpansTree.edit_exact n1 m1 n3 m3 hiv (a := min iv.start len) (b := min iv.stop len) (by rw [ln]) (by rw [ln]) ua ub
  refine ⟨r, e1, ?_⟩
  have hs := SpansTree.shows w hi
  have hlen : (Node.text r).length = min iv.start len + len' + (len - iv.stop) := by
    rw [t, List.length_append, List.length_append, List.length_take, List.length_drop, ln, lm]
    omega
  rw [hlen] at hs
  have f1 : l.filter (fun s => s.iv.stop ≤ min iv.start len) = l.filter (fun s => s.iv.stop ≤ iv.start) := by
    apply List.filter_congr
    intro s hs
    have := (n4.bounds s hs).2
    simp only [decide_eq_decide]
    omega
  have f2 : l.filter (fun s => min iv.stop len ≤ s.iv.start) = l.filter (fun s => iv.stop ≤ s.iv.start) := by
    apply List.filter_congr
    intro s hs
    have := (n4.bounds s hs).2
    simp only [decide_eq_decide]
    omega
  rw [f1, f2, lm] at hs
  have f3 : shiftUp (min iv.start len + len') (shiftDown (min iv.stop len) (l.filter (fun s => iv.stop ≤ s.iv.start))) =
      (l.filter (fun s => iv.stop ≤ s.iv.start)).map
        (fun s => ⟨⟨s.iv.start - iv.stop + (min iv.start len + len'), s.iv.stop - iv.stop + (min iv.start len + len')⟩, s.data⟩) := by
    simp only [shiftUp, shiftDown, List.map_map]
    apply List.map_congr_left
    intro s hs
    have h1 := (n4.bounds s (List.mem_filter.1 hs).1).2
    have h2 := (List.mem_filter.1 hs).2
    simp only [decide_eq_true_eq] at h2
    have : min iv.stop len = iv.stop := by omega
    simp only [Function.comp, Interval.translate, this]
  rw [f3] at hs
  exact hs

/-- Two spans with the same data side by side stay two; the one after the interval is moved. -/
example : ∃ n new r : SpansTree Nat, (SpansExpr.build 10 [⟨⟨0, 2⟩, 1⟩, ⟨⟨2, 4⟩, 1⟩, ⟨⟨6, 8⟩, 2⟩]).eval = some n ∧ (SpansExpr.build 3 [⟨⟨1, 2⟩, 7⟩]).eval = some new ∧
    n.edit ⟨4, 5⟩ new = some r ∧ SpansTree.iter r = some [⟨⟨0, 2⟩, 1⟩, ⟨⟨2, 4⟩, 1⟩, ⟨⟨5, 6⟩, 7⟩, ⟨⟨8, 10⟩, 2⟩] := by
  obtain ⟨n, e1, h1⟩ := C36_build (T := Nat) (len := 10) (spans := [⟨⟨0, 2⟩, 1⟩, ⟨⟨2, 4⟩, 1⟩, ⟨⟨6, 8⟩, 2⟩]) (by decide)
  obtain ⟨m, e2, h2⟩ := C36_build (T := Nat) (len := 3) (spans := [⟨⟨1, 2⟩, 7⟩]) (by decide)
  obtain ⟨r, e3, h3⟩ := C36_edit h1 h2 (iv := ⟨4, 5⟩) (by decide) (by decide) (by decide)
  exact ⟨n, m, r, e1, e2, e3, h3.2.2.1⟩

theorem SpansTree.deleteLoop_keeps (iv : Interval) (rest : List (Span T)) :
    ∀ {sb : SpansBuilder T} {n lo : Nat} {out : List (Span T)}, sb.Keeps n out → SpansIn 0 lo out → SpansIn lo n rest →
      ∃ sb', deleteLoop iv rest sb = some sb' ∧
        sb'.Keeps n (out ++ rest.takeWhile (fun s => s.iv.stop ≤ iv.start ∨ iv.stop ≤ s.iv.start ∨ iv.stop ≤ iv.start)) := by
  induction rest with
  | nil => intro sb n lo out h _ _; exact ⟨sb, rfl, by simpa using h⟩
  | cons s rest ih =>
    intro sb n lo out h ho hr
    obtain ⟨h1, h2, h3, h4⟩ := hr
    simp only [deleteLoop, List.takeWhile_cons]
    by_cases hc : s.iv.stop ≤ iv.start ∨ iv.stop ≤ s.iv.start ∨ iv.stop ≤ iv.start
    · rw [if_pos ((intersect_empty_iff _ _).2 (by omega))]
      have hin : SpansIn 0 s.iv.stop (out ++ [s]) := ho.append ⟨h1, h2, Nat.le_refl _, trivial⟩ (Nat.zero_le _) (by omega)
      obtain ⟨sb1, e1, a1⟩ := SpansBuilder.addSpan_keeps (iv := s.iv) (data := s.data) h (hin.mono (Nat.le_refl _) h3)
      obtain ⟨sb2, e2, a3⟩ := ih a1 hin h4
      exact ⟨sb2, by simp [e1, e2], by simpa [hc] using a3⟩
    · rw [if_neg (by rw [intersect_empty_iff]; omega)]
      exact ⟨sb, rfl, by simpa [hc] using h⟩

/-- **C36.** `delete_after` keeps the spans before the first one that meets the
interval, and no others. -/
theorem C36_delete_after (n : SpansTree T) (len : Nat) (spans : List (Span T)) (h : n.Shows len spans) (iv : Interval) :
    ∃ m kept, n.deleteAfter iv = some m ∧ m.Shows len kept ∧ kept <+: spans ∧
      (∀ s ∈ kept, s.iv.stop ≤ iv.start ∨ iv.stop ≤ s.iv.start ∨ iv.stop ≤ iv.start) ∧
      (∀ s, spans[kept.length]? = some s → iv.start < s.iv.stop ∧ s.iv.start < iv.stop ∧ iv.start < iv.stop) := by
  obtain ⟨h1, h2, h3, h4, h5⟩ := h
  obtain ⟨sb, e1, a⟩ := SpansTree.deleteLoop_keeps iv spans (SpansBuilder.keeps_new len) trivial h4
  obtain ⟨m, e2, t, w⟩ := SpansBuilder.build_keeps a
  have w := marked_balanced.1 w
  rw [List.nil_append] at t
  have hpre := List.takeWhile_prefix (l := spans) (fun s => decide (s.iv.stop ≤ iv.start ∨ iv.stop ≤ s.iv.start ∨ iv.stop ≤ iv.start))
  have hin : SpansIn 0 len (spans.takeWhile (fun s => decide (s.iv.stop ≤ iv.start ∨ iv.stop ≤ s.iv.start ∨ iv.stop ≤ iv.start))) := by
    obtain ⟨x, hx⟩ := hpre
    rw [← hx] at h4
    exact h4.left
  have hs := SpansTree.shows w (SpansTree.iter_of_marks w hin t)
  have hlen : m.text.length = len := by rw [← marks_len, t, marks_length]
  rw [hlen] at hs
  refine ⟨m, _, ?_, hs, hpre, ?_, ?_⟩
  · simp [SpansTree.deleteAfter, h2, h3, e1, e2]
  · intro s hs
    have := List.all_takeWhile (l := spans) (p := fun s => decide (s.iv.stop ≤ iv.start ∨ iv.stop ≤ s.iv.start ∨ iv.stop ≤ iv.start))
    rw [List.all_eq_true] at this
    simpa using this s hs
  · intro s hs
    have hsplit := List.takeWhile_append_dropWhile (p := fun s : Span T => decide (s.iv.stop ≤ iv.start ∨ iv.stop ≤ s.iv.start ∨ iv.stop ≤ iv.start)) (l := spans)
    have hd : (spans.dropWhile (fun s : Span T => decide (s.iv.stop ≤ iv.start ∨ iv.stop ≤ s.iv.start ∨ iv.stop ≤ iv.start))).head? = some s := by
      generalize spans.takeWhile (fun s : Span T => decide (s.iv.stop ≤ iv.start ∨ iv.stop ≤ s.iv.start ∨ iv.stop ≤ iv.start)) = k at hs hsplit
      rw [← hsplit, List.getElem?_append_right (Nat.le_refl _), Nat.sub_self] at hs
      rw [List.head?_eq_getElem?]; exact hs
    have := List.head?_dropWhile_not (fun s : Span T => decide (s.iv.stop ≤ iv.start ∨ iv.stop ≤ s.iv.start ∨ iv.stop ≤ iv.start)) spans
    rw [hd] at this
    simp at this
    omega

/-- **C36, refuted for `delete_after`.** The comment says that the spans that meet
the interval *and those that come after* are deleted; if no span meets the
interval nothing is deleted, not even what comes after. -/
theorem C36_delete_after_refuted :
    ∃ n m : SpansTree Nat, (SpansExpr.build 10 [⟨⟨0, 1⟩, 1⟩, ⟨⟨6, 8⟩, 2⟩]).eval = some n ∧ n.deleteAfter ⟨3, 5⟩ = some m ∧
      m.iter = some [⟨⟨0, 1⟩, 1⟩, ⟨⟨6, 8⟩, 2⟩] := ⟨_, _, rfl, rfl, by decide +kernel⟩

theorem SpansTree.transform_loop {α : Type} {d : Delta α} (hd : d.WF) {baseStart newLen : Nat} (spans : List (Span T)) :
    ∀ {sb : SpansBuilder T} {lo hi : Nat} {out : List (Span T)}, sb.Has newLen out →
      SpansIn 0 (d.transformIx (lo + baseStart) false - d.transformIx baseStart false) out → SpansIn lo hi spans →
      d.transformIx (hi + baseStart) false - d.transformIx baseStart false ≤ newLen →
      ∃ sb' new, spans.foldlM (transformStep d baseStart (d.transformIx baseStart false)) sb = some sb' ∧ sb'.Has newLen (out ++ new) ∧
        ∀ q, cellAt new q = cellAt (spans.map (fun s => ⟨⟨d.transformIx (s.iv.start + baseStart) false - d.transformIx baseStart false,
          d.transformIx (s.iv.stop + baseStart) false - d.transformIx baseStart false⟩, s.data⟩)) q := by
  obtain ⟨mono, -, -, -⟩ := C14_transform_monotone d hd
  induction spans with
  | nil => intro sb lo hi out h _ _ _; exact ⟨sb, [], rfl, by simpa using h, fun q => rfl⟩
  | cons s rest ih =>
    intro sb lo hi out h ho hs hn
    obtain ⟨h1, h2, h3, h4⟩ := hs
    have m0 := mono false baseStart (lo + baseStart) (by omega)
    have m1 := mono false (lo + baseStart) (s.iv.start + baseStart) (by omega)
    have m2 := mono false (s.iv.start + baseStart) (s.iv.stop + baseStart) (by omega)
    have m3 := mono false (s.iv.stop + baseStart) (hi + baseStart) (by omega)
    simp only [List.foldlM_cons, transformStep, List.map_cons]
    rw [if_neg (by omega)]
    by_cases hc : d.transformIx (s.iv.start + baseStart) false - d.transformIx baseStart false <
        d.transformIx (s.iv.stop + baseStart) false - d.transformIx baseStart false
    · rw [if_pos hc]
      obtain ⟨sb1, e1, a1, a2⟩ := SpansBuilder.addSpan_next
        (iv := ⟨d.transformIx (s.iv.start + baseStart) false - d.transformIx baseStart false,
          d.transformIx (s.iv.stop + baseStart) false - d.transformIx baseStart false⟩) (data := s.data) h ho (by simp only; omega) hc (by simp only; omega)
      obtain ⟨sb2, new, e2, a3, a4⟩ := ih a1 a2 h4 hn
      exact ⟨sb2, _ :: new, by simp [e1, e2], by simpa using a3, fun q => by rw [cellAt_cons, cellAt_cons, a4]⟩
    · rw [if_neg hc]
      obtain ⟨sb2, new, e2, a3, a4⟩ := ih h (ho.mono (Nat.le_refl _) (by omega)) h4 hn
      exact ⟨sb2, new, by simp [e2], a3, fun q => by rw [cellAt_cons, if_neg (by simp only; omega), a4]⟩

/-- **C36.** `transform`: spans made for the range from `baseStart` to `baseEnd` of
a text that has since been edited.  Every span keeps its value and is moved as
its two ends are (offsets inserted at an end come to belong to the span behind
it), and each character that was not deleted has the value it had before. -/
theorem C36_transform {α : Type} (n : SpansTree T) (spans : List (Span T)) (d : Delta α) (base : List α) (baseStart baseEnd : Nat)
    (hn : n.Shows (baseEnd - baseStart) spans) (hse : baseStart ≤ baseEnd) (hd : d.WF) (hb : d.baseLen = base.length)
    (he : baseEnd ≤ d.baseLen) :
    ∃ m, n.transform baseStart baseEnd d = some m ∧ m.Balanced ∧
      m.len = d.transformIx baseEnd true - d.transformIx baseStart false ∧
      m.text = paint m.len (spans.map (fun s => ⟨⟨d.transformIx (s.iv.start + baseStart) false - d.transformIx baseStart false,
        d.transformIx (s.iv.stop + baseStart) false - d.transformIx baseStart false⟩, s.data⟩)) ∧
      ∀ pre post b e ix, d.els = pre ++ .copy b e :: post → b ≤ ix → ix < e → baseStart ≤ ix → ix < baseEnd →
        d.transformIx baseStart false ≤ (elsText base pre).length + (ix - b) ∧
        m.text[(elsText base pre).length + (ix - b) - d.transformIx baseStart false]? = n.text[ix - baseStart]? := by
  obtain ⟨h1, h2, h3, h4, h5⟩ := hn
  obtain ⟨mono, aft, -, -⟩ := C14_transform_monotone d hd
  have m1 := mono false baseStart baseEnd hse
  have m2 := aft baseEnd
  obtain ⟨sb, new, e1, a1, a2⟩ := SpansTree.transform_loop hd (baseStart := baseStart)
    (newLen := d.transformIx baseEnd true - d.transformIx baseStart false) spans (lo := 0) (SpansBuilder.has_new _) trivial h4
    (by rw [show baseEnd - baseStart + baseStart = baseEnd by omega]; omega)
  obtain ⟨m, e2, t, w⟩ := SpansBuilder.build_spec a1
  rw [List.nil_append] at t
  have hlen : m.len = d.transformIx baseEnd true - d.transformIx baseStart false := by
    rw [SpansTree.len_eq w, t, paint_length]
  have ht := t.trans (paint_congr (fun p _ => a2 p))
  refine ⟨m, ?_, w, hlen, hlen ▸ ht, ?_⟩
  · simp only [SpansTree.transform]
    rw [if_neg (by omega), h3]
    simp [e1, e2]
  · intro pre post b e ix hels hb1 he1 hs1 hs2
    obtain ⟨c1, c2, -⟩ := C14_transform_tracks_characters d hd hels hb1 he1 base hb.symm
    generalize (elsText base pre).length + (ix - b) = q at c1 c2
    have k1 := mono false baseStart ix hs1
    have k2 := aft ix
    have k3 := mono false (ix + 1) baseEnd hs2
    refine ⟨by omega, ?_⟩
    rw [ht, paint_get, if_pos (by omega), h5, paint_get, if_pos (by omega)]
    congr 1
    have key : ∀ l : List (Span T), (∀ s ∈ l, s.iv.stop ≤ baseEnd - baseStart) →
        cellAt (l.map (fun s => (⟨⟨d.transformIx (s.iv.start + baseStart) false - d.transformIx baseStart false,
          d.transformIx (s.iv.stop + baseStart) false - d.transformIx baseStart false⟩, s.data⟩ : Span T)))
          (q - d.transformIx baseStart false) = cellAt l (ix - baseStart) := by
      intro l hl
      induction l with
      | nil => rfl
      | cons s l ih =>
        rw [List.map_cons, cellAt_cons, cellAt_cons, ih (fun x hx => hl x (by simp [hx]))]
        simp only
        have hst := hl s (by simp)
        by_cases hc : s.iv.start ≤ ix - baseStart ∧ ix - baseStart < s.iv.stop
        · rw [if_pos hc]
          have p1 := mono false (s.iv.start + baseStart) ix (by omega)
          have p2 := mono false (ix + 1) (s.iv.stop + baseStart) (by omega)
          have p3 := mono false baseStart (s.iv.start + baseStart) (by omega)
          rw [if_pos (by omega)]
        · rw [if_neg hc]
          by_cases hlt : ix - baseStart < s.iv.start
          · have p1 := mono false (ix + 1) (s.iv.start + baseStart) (by omega)
            rw [if_neg (by omega)]
          · have p1 := mono false (s.iv.stop + baseStart) ix (by omega)
            rw [if_neg (by omega)]
    exact key spans (fun s hs => (h4.bounds s hs).2.2)

/-- Spans over the range 2..8; `ab` is deleted inside the first and `XY` inserted
between the two. -/
example : ∃ n : SpansTree Nat, (SpansExpr.build 6 [⟨⟨0, 3⟩, 1⟩, ⟨⟨3, 5⟩, 2⟩]).eval = some n ∧
    n.Shows (8 - 2) [⟨⟨0, 3⟩, 1⟩, ⟨⟨3, 5⟩, 2⟩] ∧ (⟨[.copy 0 2, .copy 4 5, .insert [(), ()], .copy 5 10], 10⟩ : Delta Unit).WF := by
  obtain ⟨n, spans, e1, e2, e3, e4, e5, e6, e7⟩ := C36_spans (.build 6 [⟨⟨0, 3⟩, 1⟩, ⟨⟨3, 5⟩, 2⟩]) _ ⟨by decide, rfl⟩
  refine ⟨n, e1, ⟨e2, e3, ?_, by decide, e4⟩, by decide⟩
  have : n = _ := Option.some.inj (e1.symm.trans rfl)
  subst this
  decide +kernel

/-- Two nested spans of a first plugin, and seventy of a second. -/
def nestedRed : SpansExpr Nat := .build 200 [⟨⟨0, 200⟩, 1⟩, ⟨⟨1, 2⟩, 2⟩]

def manyBlue : SpansExpr Nat := .build 200 ((List.range 70).map (fun i => ⟨⟨2 * i, 2 * i + 1⟩, i⟩))

/-- **C36, refuted for overlapping spans.** The documented precondition of
`add_span` is only that starts do not decrease, so spans may overlap; then `merge`
can panic, because what it adds is no longer in order. -/
theorem C36_overlap_refuted :
    ∃ a b, nestedRed.eval = some a ∧ manyBlue.eval = some b ∧ a.len = b.len ∧ a.merge b (fun x _ => x) = none := by
  refine ⟨(nestedRed.eval).get (by decide +kernel), (manyBlue.eval).get (by decide +kernel), ?_, ?_, ?_, ?_⟩
  · simp
  · simp
  · decide +kernel
  · have : ((nestedRed.eval).get (by decide +kernel)).merge ((manyBlue.eval).get (by decide +kernel)) (fun x _ => x) |>.isNone := by decide +kernel
    simpa using this

end Xi
