import Verif.Spec.Breaks
import Verif.Rope.BreaksLemmas

/-!
# Line breaks (rope/src/breaks.rs): C35
-/

namespace Xi

/-- The layout as a leaf of any size. -/
def Layout.leaf (a : Layout) : BreaksLeaf := ⟨a.len, a.breaks⟩

theorem BreaksLeaf.whole_ok {l m : BreaksLeaf} (hl : l.Ordered) (hm : m.Ordered) :
    BreaksLeaf.Ordered ⟨l.len + m.len, l.data ++ m.data.map (l.len + ·)⟩ ∧
      flags ⟨l.len + m.len, l.data ++ m.data.map (l.len + ·)⟩ = l.flags ++ m.flags := by
  obtain ⟨a1, a2, a3⟩ := append_ok (s := 0) (e := m.len) hl hm (Nat.zero_le _) (Nat.le_refl _)
  have hfil : m.data.filter (fun v => 0 < v ∧ v ≤ m.len) = m.data := by
    rw [List.filter_eq_self]
    intro v hv
    simpa using hm.bounds v hv
  have he : m.data.map (fun v => v - 0 + l.len) = m.data.map (l.len + ·) := by
    apply List.map_congr_left; intro v _; omega
  rw [List.take_of_length_le (by rw [flags_length]; omega), List.drop_zero] at a3
  rw [hfil, he] at a1 a2 a3
  exact ⟨⟨a1, a2⟩, a3⟩

theorem BreaksLeaf.part_ok {l : BreaksLeaf} {s e : Nat} (hl : l.Ordered) (hse : s ≤ e) (he : e ≤ l.len) :
    BreaksLeaf.Ordered ⟨e - s, (l.data.filter (fun v => s < v ∧ v ≤ e)).map (· - s)⟩ ∧
      flags ⟨e - s, (l.data.filter (fun v => s < v ∧ v ≤ e)).map (· - s)⟩ = (l.flags.take e).drop s := by
  obtain ⟨a1, a2, a3⟩ := append_ok (l := ⟨0, []⟩) (s := s) (e := e) ⟨by simp, by simp⟩ hl hse he
  have h0 : flags ⟨0, []⟩ = [] := rfl
  simp only [Nat.zero_add, List.nil_append, Nat.add_zero, h0] at a1 a2 a3
  exact ⟨⟨a1, a2⟩, a3⟩

theorem BreaksLeaf.blank_ok (n : Nat) : BreaksLeaf.Ok ⟨n, []⟩ := ⟨⟨by simp, by simp⟩, by simp⟩

/-- The state of a builder: what was pushed to the tree, and the leaf being filled. -/
def BreakBuilder.Has (b : BreakBuilder) (a : Layout) : Prop :=
  ∃ t, b.b.Holds t ∧ b.leaf.Ok ∧ t ++ b.leaf.flags = a.leaf.flags ∧ a.leaf.Ordered

theorem BreakBuilder.new_has : BreakBuilder.new.Has (.blank 0) :=
  ⟨[], TreeBuilder.holds_new, BreaksLeaf.blank_ok 0, rfl, (BreaksLeaf.blank_ok 0).toOrdered⟩

theorem BreaksLeaf.snoc_ok {l : BreaksLeaf} {n : Nat} (h : l.Ordered) (hn : 0 < n) :
    BreaksLeaf.Ordered ⟨l.len + n, l.data ++ [l.len + n]⟩ ∧
      flags ⟨l.len + n, l.data ++ [l.len + n]⟩ = l.flags ++ flags ⟨n, [n]⟩ := by
  have := whole_ok (m := ⟨n, [n]⟩) h ⟨by simp, by simp; omega⟩
  simpa using this

theorem BreaksLeaf.blank_snoc {l : BreaksLeaf} {n : Nat} (h : l.Ordered) :
    BreaksLeaf.Ordered ⟨l.len + n, l.data⟩ ∧ flags ⟨l.len + n, l.data⟩ = l.flags ++ flags ⟨n, []⟩ := by
  have := whole_ok (m := ⟨n, []⟩) h (blank_ok n).toOrdered
  simpa using this

theorem BreakCall.run_spec {b : BreakBuilder} {a : Layout} (h : b.Has a) (c : BreakCall) (hc : ∀ n, c = .brk n → 0 < n) :
    ∃ b', c.run b = some b' ∧ b'.Has (c.apply a) := by
  obtain ⟨t, h1, h2, h3, h4⟩ := h
  cases c with
  | blank n =>
    obtain ⟨o1, f1⟩ := BreaksLeaf.blank_snoc (n := n) h2.toOrdered
    obtain ⟨o2, f2⟩ := BreaksLeaf.blank_snoc (n := n) h4
    refine ⟨_, rfl, t, h1, ⟨o1, h2.size⟩, ?_, o2⟩
    show t ++ BreaksLeaf.flags ⟨_, _⟩ = BreaksLeaf.flags ⟨a.leaf.len + n, a.leaf.data⟩
    rw [f1, f2, ← List.append_assoc, h3]
  | brk n =>
    have hn := hc n rfl
    obtain ⟨o2, f2⟩ := BreaksLeaf.snoc_ok (n := n) h4 hn
    simp only [BreakCall.run, BreakBuilder.addBreak, Breaks.maxLeaf]
    by_cases hfull : b.leaf.data.length = 64
    · obtain ⟨tb, e1, e2⟩ := TreeBuilder.push_spec h1 (Node.wf_fromLeaf (I := BreaksInfo) h2)
      rw [Node.text_fromLeaf] at e2
      have hok : BreaksLeaf.Ok ⟨0 + n, [] ++ [0 + n]⟩ := ⟨⟨by simp, by simp; omega⟩, by simp⟩
      refine ⟨⟨tb, ⟨0 + n, [] ++ [0 + n]⟩⟩, by rw [if_pos hfull]; simp [e1], t ++ b.leaf.flags, e2, hok, ?_, o2⟩
      show (t ++ b.leaf.flags) ++ BreaksLeaf.flags ⟨_, _⟩ = BreaksLeaf.flags ⟨a.leaf.len + n, a.leaf.data ++ [a.leaf.len + n]⟩
      rw [f2, h3]
      simp
    · obtain ⟨o1, f1⟩ := BreaksLeaf.snoc_ok (n := n) h2.toOrdered hn
      have := h2.size
      refine ⟨⟨b.b, ⟨b.leaf.len + n, b.leaf.data ++ [b.leaf.len + n]⟩⟩, by rw [if_neg hfull]; rfl, t, h1, ⟨o1, by simp; omega⟩, ?_, o2⟩
      show t ++ BreaksLeaf.flags ⟨_, _⟩ = BreaksLeaf.flags ⟨a.leaf.len + n, a.leaf.data ++ [a.leaf.len + n]⟩
      rw [f1, f2, ← List.append_assoc, h3]

theorem breakCalls_spec (calls : List BreakCall) : ∀ {b : BreakBuilder} {a : Layout}, b.Has a → (∀ n, .brk n ∈ calls → 0 < n) →
    ∃ b', calls.foldlM BreakCall.run b = some b' ∧ b'.Has (calls.foldl BreakCall.apply a) := by
  induction calls with
  | nil => intro b a h _; exact ⟨b, rfl, h⟩
  | cons c calls ih =>
    intro b a h hc
    obtain ⟨b', e1, h1⟩ := BreakCall.run_spec h c (fun n hn => hc n (by simp [hn]))
    obtain ⟨b'', e2, h2⟩ := ih h1 (fun n hn => hc n (by simp [hn]))
    exact ⟨b'', by simp [e1, e2], h2⟩

theorem cut_breaks {t : List Bool} {i : Nat} (h : i ≤ t.length) : Cut BreaksLeaf t i := ⟨h, trivial, trivial⟩

theorem breaks_expr_spec (e : BreaksExpr) : ∀ a : Layout, e.Means a →
    ∃ b, e.eval = some b ∧ b.Balanced ∧ b.text = a.leaf.flags ∧ a.leaf.Ordered := by
  induction e with
  | blank n =>
    intro a h
    subst h
    have hok := BreaksLeaf.blank_ok n
    exact ⟨_, rfl, ⟨0, Node.wf_fromLeaf hok⟩, Node.text_fromLeaf, hok.toOrdered⟩
  | build calls =>
    intro a h
    obtain ⟨h1, rfl⟩ := h
    obtain ⟨b, e1, t, h2, h3, h4, h5⟩ := breakCalls_spec calls BreakBuilder.new_has h1
    obtain ⟨tb, e2, h6⟩ := TreeBuilder.push_spec h2 (Node.wf_fromLeaf (I := BreaksInfo) h3)
    obtain ⟨r, e3, h7, h8⟩ := TreeBuilder.build_spec h6
    refine ⟨r, by simp [BreaksExpr.eval, BreakBuilder.build, e1, e2, e3], h8, ?_, h5⟩
    rw [h7, Node.text_fromLeaf, ← h4]
    rfl
  | concat e1 e2 ih1 ih2 =>
    intro a h
    obtain ⟨x, y, m1, m2, rfl⟩ := h
    obtain ⟨r1, f1, ⟨k1, b1⟩, t1, o1⟩ := ih1 x m1
    obtain ⟨r2, f2, ⟨k2, b2⟩, t2, o2⟩ := ih2 y m2
    obtain ⟨r, f, t, w⟩ := Node.concat_spec b1 b2
    obtain ⟨o, fl⟩ := BreaksLeaf.whole_ok o1 o2
    refine ⟨r, by simp [BreaksExpr.eval, f1, f2, f], w.elim (fun h => ⟨_, h⟩) (fun h => ⟨_, h⟩), ?_, o⟩
    rw [t, t1, t2]
    exact fl.symm
  | slice e1 iv ih =>
    intro a h
    obtain ⟨x, m1, h1, h2, rfl⟩ := h
    obtain ⟨r1, f1, b1, t1, o1⟩ := ih x m1
    have hlen : r1.text.length = x.len := by rw [t1, BreaksLeaf.flags_length]; rfl
    obtain ⟨r, f, t, w⟩ := Node.subseq_spec b1 (iv := iv) (fun _ => ⟨cut_breaks (by omega), cut_breaks (by omega)⟩)
    obtain ⟨o, fl⟩ := BreaksLeaf.part_ok (l := x.leaf) o1 h1 h2
    refine ⟨r, by simp [BreaksExpr.eval, f1, f], w, ?_, o⟩
    rw [t, t1]
    exact fl.symm
  | edit e1 iv e2 ih1 ih2 =>
    intro a h
    obtain ⟨x, y, m1, m2, h1, h2, rfl⟩ := h
    obtain ⟨r1, f1, b1, t1, o1⟩ := ih1 x m1
    obtain ⟨r2, f2, b2, t2, o2⟩ := ih2 y m2
    have hlen : r1.text.length = x.len := by rw [t1, BreaksLeaf.flags_length]; rfl
    obtain ⟨r, f, t, w⟩ := Node.edit_spec b1 b2 (iv := iv) (cut_breaks (by omega)) (cut_breaks (by omega))
    obtain ⟨p1, q1⟩ := BreaksLeaf.part_ok (l := x.leaf) (s := 0) (e := iv.start) o1 (by omega) (by show iv.start ≤ x.len; omega)
    obtain ⟨p2, q2⟩ := BreaksLeaf.part_ok (l := x.leaf) (s := iv.stop) (e := x.len) o1 h2 (Nat.le_refl _)
    obtain ⟨p3, q3⟩ := BreaksLeaf.whole_ok p1 o2
    obtain ⟨p4, q4⟩ := BreaksLeaf.whole_ok p3 p2
    refine ⟨r, by simp [BreaksExpr.eval, f1, f2, f], w, ?_, p4⟩
    rw [t, t1, t2]
    refine Eq.trans ?_ q4.symm
    rw [q3, q1, q2, List.drop_zero, List.take_of_length_le (l := x.leaf.flags) (i := x.len) (by rw [BreaksLeaf.flags_length]; exact Nat.le_refl _)]

/-- **C35.** However breaks were built, put together, cut and edited: the length
and the number of breaks are those of the plain list. -/
theorem C35_history (e : BreaksExpr) (a : Layout) (h : e.Means a) :
    ∃ b, e.eval = some b ∧ b.len = a.len ∧ b.info.count = a.breaks.length ∧ b.Balanced := by
  obtain ⟨b, e1, ⟨k, w⟩, t, o⟩ := breaks_expr_spec e a h
  refine ⟨b, e1, ?_, ?_, k, w⟩
  · rw [w.len_eq, t, BreaksLeaf.flags_length]; rfl
  · have := w.measure counts_breaks
    rw [t, BreaksLeaf.flags_count o] at this
    exact this

/-- **C35.** `count` up to an offset is the number of breaks up to there, a break
at the offset itself included. -/
theorem C35_count (e : BreaksExpr) (a : Layout) (h : e.Means a) (off : Nat) (ho : off ≤ a.len) :
    e.eval.bind (·.count off) = some (a.breaks.countP (· ≤ off)) := by
  obtain ⟨b, e1, hb, t, o⟩ := breaks_expr_spec e a h
  have hl : off ≤ b.text.length := by rw [t, BreaksLeaf.flags_length]; exact ho
  rw [e1, Option.bind_some, Breaks.count_spec hb hl, t, BreaksLeaf.count_flags_take a.leaf o.sorted (fun v hv => (o.bounds v hv).1) off ho]
  rfl

/-- **C35.** `count_base_units` of `n` is the offset of the `n`-th break; 0 for 0. -/
theorem C35_offset_of_break (e : BreaksExpr) (a : Layout) (h : e.Means a) (n : Nat) (hn : n ≤ a.breaks.length) :
    e.eval.bind (·.countBaseUnits n) = (0 :: a.breaks)[n]? := by
  obtain ⟨b, e1, hb, t, o⟩ := breaks_expr_spec e a h
  rw [e1, Option.bind_some]
  cases n with
  | zero => simp [Breaks.countBaseUnits, Node.convertMetrics]
  | succ n =>
    have hc : b.text.count true = a.breaks.length := by rw [t, BreaksLeaf.flags_count o]; rfl
    obtain ⟨x, g1, g2, g3, g4⟩ := Breaks.countBaseUnits_spec hb (n := n + 1) (by omega) (by omega)
    rw [g1, List.getElem?_cons_succ]
    rw [t] at g2 g3 g4
    rw [BreaksLeaf.flags_length] at g2
    rw [BreaksLeaf.count_flags_take a.leaf o.sorted (fun v hv => (o.bounds v hv).1) x g2] at g4
    rw [breakAt_leaf o] at g3
    obtain ⟨i, hi⟩ := List.mem_iff_getElem?.1 g3
    have h1 := (BreaksLeaf.sorted_le_iff o.sorted x hi).1 (Nat.le_refl _)
    by_cases hin : i = n
    · subst hin; exact hi.symm
    · exfalso
      obtain ⟨y, hy⟩ : ∃ y, a.breaks[n]? = some y := ⟨_, List.getElem?_eq_getElem (by omega)⟩
      have h2 := (BreaksLeaf.sorted_le_iff (d := a.breaks) o.sorted x hy).2 (by
        change _ = _ at g4
        rw [show a.breaks = a.leaf.data from rfl, g4]; omega)
      obtain ⟨i1, i2⟩ := List.getElem?_eq_some_iff.1 hi
      obtain ⟨j1, j2⟩ := List.getElem?_eq_some_iff.1 hy
      have := List.pairwise_iff_getElem.1 o.sorted i n i1 j1 (by rw [g4] at h1; omega)
      change a.breaks[i] < a.breaks[n] at this
      change a.breaks[i] = x at i2
      omega

/-- **C35.** The two conversions are inverse to each other at breaks. -/
theorem C35_inverse (e : BreaksExpr) (a : Layout) (h : e.Means a) (n : Nat) (hn : n ≤ a.breaks.length) :
    ∃ b off, e.eval = some b ∧ b.countBaseUnits n = some off ∧ b.count off = some n := by
  obtain ⟨b, e1, hb, t, o⟩ := breaks_expr_spec e a h
  cases n with
  | zero => exact ⟨b, 0, e1, by simp [Breaks.countBaseUnits, Node.convertMetrics], by simp [Breaks.count, Node.convertMetrics]⟩
  | succ n =>
    have hc : b.text.count true = a.breaks.length := by rw [t, BreaksLeaf.flags_count o]; rfl
    obtain ⟨x, g1, g2, g3, g4⟩ := Breaks.countBaseUnits_spec hb (n := n + 1) (by omega) (by omega)
    exact ⟨b, x, e1, g1, by rw [Breaks.count_spec hb g2, g4]⟩

theorem sorted_unique {l m : List Nat} (hl : l.Pairwise (· < ·)) (hm : m.Pairwise (· < ·)) (h : ∀ k, k ∈ l ↔ k ∈ m) : l = m := by
  induction l generalizing m with
  | nil =>
    cases m with
    | nil => rfl
    | cons x m => exact absurd ((h x).2 (by simp)) (by simp)
  | cons x l ih =>
    cases m with
    | nil => exact absurd ((h x).1 (by simp)) (by simp)
    | cons y m =>
      rw [List.pairwise_cons] at hl hm
      have hxy : x = y := by
        rcases List.mem_cons.1 ((h x).1 (by simp)) with h1 | h1
        · exact h1
        · rcases List.mem_cons.1 ((h y).2 (by simp)) with h2 | h2
          · exact h2.symm
          · have := hl.1 y h2
            have := hm.1 x h1
            omega
      subst hxy
      congr 1
      refine ih hl.2 hm.2 (fun k => ?_)
      have := h k
      simp only [List.mem_cons] at this
      constructor
      · intro hk
        rcases this.1 (.inr hk) with rfl | h1
        · exact absurd (hl.1 _ hk) (Nat.lt_irrefl _)
        · exact h1
      · intro hk
        rcases this.2 (.inr hk) with rfl | h1
        · exact absurd (hm.1 _ hk) (Nat.lt_irrefl _)
        · exact h1

/-- **C35.** Iterating with a cursor from an offset gives the breaks after it, in
order. -/
theorem C35_iter (e : BreaksExpr) (a : Layout) (h : e.Means a) (p : Nat) (hp : p ≤ a.len) :
    ∃ b, e.eval = some b ∧
      ((Cursor.new b p).bind (Cursor.iterAll breaksMetric (a.len - p + 1))) = some (a.breaks.filter (p < ·)) := by
  obtain ⟨b, e1, hb, t, o⟩ := breaks_expr_spec e a h
  have hl : b.text.length = a.len := by rw [t, BreaksLeaf.flags_length]; rfl
  obtain ⟨c, pre, l, post, h1, h2, h3, h4⟩ := Cursor.new_spec hb (p := p) (by omega)
  obtain ⟨l, g1, g2, g3⟩ := Cursor.iterAll_spec finds_breaks rfl (r := b) (a.len - p + 1) (c := c) (p := some p) ⟨h3, h4, pre, l, post, h2⟩
    (by simp; omega)
  refine ⟨b, e1, ?_⟩
  rw [h1, Option.bind_some, g1]
  congr 1
  refine sorted_unique g2 ((show a.breaks.Pairwise (· < ·) from o.sorted).filter _) (fun k => ?_)
  rw [g3]
  simp only [Option.some.injEq, exists_eq_left', List.mem_filter, decide_eq_true_eq]
  rw [t, breakAt_leaf o]
  constructor
  · rintro ⟨k1, k2, k3⟩; exact ⟨k3, k1⟩
  · rintro ⟨k1, k2⟩
    exact ⟨k2, by have := (o.bounds k k1).2; rw [BreaksLeaf.flags_length]; exact this, k1⟩

/-- **C35.** `prev` from an offset finds the last break before it. -/
theorem C35_prev (e : BreaksExpr) (a : Layout) (h : e.Means a) (p : Nat) (hp : p ≤ a.len) :
    ∃ b c r, e.eval = some b ∧ ((Cursor.new b p).bind (·.prev breaksMetric)) = some (c, r) ∧ IsPrev (· ∈ a.breaks) p r := by
  obtain ⟨b, e1, hb, t, o⟩ := breaks_expr_spec e a h
  have hl : b.text.length = a.len := by rw [t, BreaksLeaf.flags_length]; rfl
  obtain ⟨c, pre, l, post, h1, h2, h3, h4⟩ := Cursor.new_spec hb (p := p) (by omega)
  obtain ⟨c', r, g1, g2, g3⟩ := Cursor.prev_spec finds_breaks h2
  refine ⟨b, c', r, e1, by rw [h1, Option.bind_some, g1], ?_⟩
  have hB : BreakAt c.root.text = (· ∈ a.breaks) := by
    funext k
    rw [h3, t, breakAt_leaf o]
    rfl
  rw [hB, h4] at g2
  exact g2

/-- Non-vacuity: a hundred lines of three units are more than one leaf; then two
parts are put together. -/
def exampleBreaks : BreaksExpr :=
  .edit (.build (List.replicate 100 (.brk 3) ++ [.blank 2])) ⟨4, 299⟩ (.slice (.concat (.blank 5) (.build [.brk 2, .blank 1, .brk 1])) ⟨1, 9⟩)

example : exampleBreaks.Means ⟨15, [3, 10, 12, 13]⟩ := by
  refine ⟨⟨302, (List.range 100).map (fun i => 3 * i + 3)⟩, ⟨8, [6, 8]⟩, ⟨?_, by decide +kernel⟩,
    ⟨⟨9, [7, 9]⟩, ⟨⟨5, []⟩, ⟨4, [2, 4]⟩, rfl, ⟨by simp, rfl⟩, rfl⟩, by decide, by decide, rfl⟩, by decide, by decide, ?_⟩
  · intro n hn
    simp at hn; omega
  · decide +kernel

end Xi
