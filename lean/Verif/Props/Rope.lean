import Verif.Spec.Rope
import Verif.Rope.Utf16Lemmas

/-!
# Ropes (rope/src/tree.rs, rope/src/rope.rs): C01-C05, C51
-/

namespace Xi

theorem bounds_spec {iv : Bounds} {n : Nat} (h : iv.lo ≤ iv.hi n) : iv.intoInterval n = some ⟨iv.lo, iv.hi n⟩ := by
  cases iv <;> simp_all [Bounds.intoInterval, Bounds.lo, Bounds.hi, Interval.new]

theorem pushSlice_spec {b : TreeBuilder (List UInt8) RopeInfo} {t s y : List UInt8} {iv : Interval} (hb : b.Holds t) (hs : Utf8 s)
    (hl : s.length ≤ 1024) (hc : Cuts s iv.start iv.stop y) :
    ∃ b', b.pushLeafSlice s iv = some b' ∧ b'.Holds (t ++ y) := by
  obtain ⟨h1, h2, h3, rfl⟩ := hc
  have h2' := (cut_iff hs).2 h2
  have h3' := (cut_iff hs).2 h3
  have hok : LeafSpec.ok (L := List UInt8) s := ⟨hs, hl⟩
  obtain ⟨l', e1, e2, e3⟩ := LeafSpec.push_slice (s := iv.start) (e := iv.stop) hok h1 h3'.1 h2'.2.1 h3'.2.1
  obtain ⟨b', e4, e5⟩ := Rope.pushLeaf_spec hb e2.1 e2.2
  refine ⟨b', ?_, ?_⟩
  · simp only [TreeBuilder.pushLeafSlice, TreeLeaf.subseq]
    rw [e1]
    exact e4
  · rw [show l' = (s.take iv.stop).drop iv.start from e3] at e5
    exact e5

mutual

theorem rope_expr_spec : ∀ (e : RopeExpr) (t : List UInt8), e.Means t → ∃ r, e.eval = some r ∧ r.text = t ∧ r.Balanced
  | .str s, t, h => by
    simp only [RopeExpr.Means] at h
    obtain ⟨h1, rfl⟩ := h
    exact Rope.fromStr_spec h1
  | .concat a b, t, h => by
    simp only [RopeExpr.Means] at h
    obtain ⟨x, y, h1, h2, rfl⟩ := h
    obtain ⟨r1, e1, rfl, b1⟩ := rope_expr_spec a x h1
    obtain ⟨r2, e2, rfl, b2⟩ := rope_expr_spec b y h2
    obtain ⟨k1, b1⟩ := b1
    obtain ⟨k2, b2⟩ := b2
    obtain ⟨r, e, h3, h4⟩ := Node.concat_spec b1 b2
    exact ⟨r, by simp [RopeExpr.eval, e1, e2, e], h3, h4.elim (fun h => ⟨_, h⟩) (fun h => ⟨_, h⟩)⟩
  | .add a b, t, h => by
    simp only [RopeExpr.Means] at h
    obtain ⟨x, y, h1, h2, rfl⟩ := h
    obtain ⟨r1, e1, rfl, b1⟩ := rope_expr_spec a x h1
    obtain ⟨r2, e2, rfl, b2⟩ := rope_expr_spec b y h2
    obtain ⟨r, e, h3, h4⟩ := Rope.add_spec b1 b2
    exact ⟨r, by simp [RopeExpr.eval, e1, e2, e], h3, h4⟩
  | .slice a iv, t, h => by
    simp only [RopeExpr.Means] at h
    obtain ⟨x, h1, h2, h3, h4, rfl⟩ := h
    obtain ⟨r1, e1, rfl, b1⟩ := rope_expr_spec a x h1
    have hu := Rope.text_utf8 b1
    obtain ⟨r, e, h5, h6⟩ := Node.subseq_spec b1 (iv := ⟨iv.lo, iv.hi r1.text.length⟩)
      (fun _ => ⟨(cut_iff hu).2 h3, (cut_iff hu).2 h4⟩)
    exact ⟨r, by simp [RopeExpr.eval, Rope.slice, e1, Rope.len_eq b1, bounds_spec h2, e], h5, h6⟩
  | .edit a iv new, t, h => by
    simp only [RopeExpr.Means] at h
    obtain ⟨x, y, pre, post, h1, h2, h3, ⟨-, -, h4, rfl⟩, ⟨-, h5, -, rfl⟩, rfl⟩ := h
    obtain ⟨r1, e1, rfl, b1⟩ := rope_expr_spec a x h1
    obtain ⟨r2, e2, rfl, b2⟩ := rope_expr_spec new y h2
    have hu := Rope.text_utf8 b1
    obtain ⟨r, e, h6, h7⟩ := Node.edit_spec b1 b2 (iv := ⟨iv.lo, iv.hi r1.text.length⟩) ((cut_iff hu).2 h4) ((cut_iff hu).2 h5)
    exact ⟨r, by simp [RopeExpr.eval, Rope.edit, e1, e2, Rope.len_eq b1, bounds_spec h3, e], by simpa using h6, h7⟩
  | .build b, t, h => by
    simp only [RopeExpr.Means] at h
    obtain ⟨b', e1, h1⟩ := builder_expr_spec b t h
    obtain ⟨r, e, h3, h4⟩ := TreeBuilder.build_spec h1
    exact ⟨r, by simp [RopeExpr.eval, e1, e], h3, h4⟩

theorem builder_expr_spec : ∀ (b : BuilderExpr) (t : List UInt8), b.Means t → ∃ b', b.eval = some b' ∧ b'.Holds t
  | .new, t, h => by
    simp only [BuilderExpr.Means] at h
    subst h
    exact ⟨_, rfl, TreeBuilder.holds_new⟩
  | .push b r, t, h => by
    simp only [BuilderExpr.Means] at h
    obtain ⟨x, y, h1, h2, rfl⟩ := h
    obtain ⟨b1, e1, h3⟩ := builder_expr_spec b x h1
    obtain ⟨r2, e2, rfl, k, b2⟩ := rope_expr_spec r y h2
    obtain ⟨b', e, h4⟩ := TreeBuilder.push_spec h3 b2
    exact ⟨b', by simp [BuilderExpr.eval, e1, e2, e], h4⟩
  | .pushStr b s, t, h => by
    simp only [BuilderExpr.Means] at h
    obtain ⟨x, h1, h2, rfl⟩ := h
    obtain ⟨b1, e1, h3⟩ := builder_expr_spec b x h1
    obtain ⟨b', e, h4⟩ := Rope.pushStr_spec h3 h2
    exact ⟨b', by simp [BuilderExpr.eval, e1, e], h4⟩
  | .pushLeaf b s, t, h => by
    simp only [BuilderExpr.Means] at h
    obtain ⟨x, h1, h2, h5, rfl⟩ := h
    obtain ⟨b1, e1, h3⟩ := builder_expr_spec b x h1
    obtain ⟨b', e, h4⟩ := Rope.pushLeaf_spec h3 h2 h5
    exact ⟨b', by simp [BuilderExpr.eval, e1, e], h4⟩
  | .pushLeafSlice b s iv, t, h => by
    simp only [BuilderExpr.Means] at h
    obtain ⟨x, y, h1, h2, h5, h6, rfl⟩ := h
    obtain ⟨b1, e1, h3⟩ := builder_expr_spec b x h1
    obtain ⟨b', e, h4⟩ := pushSlice_spec h3 h2 h5 h6
    exact ⟨b', by simp [BuilderExpr.eval, e1, e], h4⟩
  | .pushSubseq b r iv, t, h => by
    simp only [BuilderExpr.Means] at h
    obtain ⟨x, y, z, h1, h2, ⟨h5, h6, h7, rfl⟩, rfl⟩ := h
    obtain ⟨b1, e1, h3⟩ := builder_expr_spec b x h1
    obtain ⟨r2, e2, rfl, b2⟩ := rope_expr_spec r y h2
    have hu := Rope.text_utf8 b2
    obtain ⟨b', e, h4⟩ := Node.pushSubseq_ok b2 h3 (iv := iv) (fun _ => ⟨(cut_iff hu).2 h6, (cut_iff hu).2 h7⟩)
    exact ⟨b', by simp [BuilderExpr.eval, e1, e2, e], h4⟩

end

/-- **C01.** Any history of building, concatenating, slicing and editing ropes
yields the text that the same operations yield on plain strings. -/
theorem C01_history (e : RopeExpr) (t : List UInt8) (h : e.Means t) : ∃ r, e.eval = some r ∧ r.text = t := by
  obtain ⟨r, h1, h2, -⟩ := rope_expr_spec e t h
  exact ⟨r, h1, h2⟩

/-- The history used in the examples: text longer than one leaf, cut and put
together again. -/
def exampleExpr (n : Nat) : RopeExpr :=
  .edit (.concat (.str (List.replicate n 97)) (.slice (.str [98, 10, 99]) (.fromOn 1))) (.upto 2) (.str [0xc3, 0xa9])

theorem utf8_ascii {s : List UInt8} (h : ∀ b ∈ s, b.toNat < 128) : Utf8 s := by
  induction s with
  | nil => exact utf8_nil
  | cons b s ih =>
    have h1 := h b (by simp)
    have : String.utf8EncodeChar (Char.ofNat b.toNat) = [b] := by
      have hv : b.toNat.isValidChar := by unfold Nat.isValidChar; omega
      have hc : (Char.ofNat b.toNat).val.toNat = b.toNat := by
        simp [Char.ofNat, hv, Char.ofNatAux]
      unfold String.utf8EncodeChar
      simp only [hc]
      rw [if_pos (by omega)]
      simp
    have h2 := utf8_cons (Char.ofNat b.toNat) (ih (fun c hc => h c (by simp [hc])))
    rw [this] at h2
    exact h2

theorem boundary_ascii {s : List UInt8} (h : ∀ b ∈ s, b.toNat < 128) {i : Nat} (hi : i ≤ s.length) : CharBoundary s i := by
  have hs := utf8_ascii h
  rw [← boundary_iff_spec hs, boundary_iff hs]
  exact ⟨hi, utf8_ascii (fun b hb => h b (List.mem_of_mem_take hb)), utf8_ascii (fun b hb => h b (List.mem_of_mem_drop hb))⟩

example (n : Nat) : (exampleExpr (n + 2)).Means ([0xc3, 0xa9] ++ (List.replicate n 97 ++ [10, 99])) := by
  have ha : ∀ n, ∀ b ∈ List.replicate n (97 : UInt8), b.toNat < 128 := by
    intro n b hb; rw [List.eq_of_mem_replicate hb]; decide
  have hx : ∀ b ∈ 97 :: 97 :: (List.replicate n (97 : UInt8) ++ [10, 99]), b.toNat < 128 := by
    intro b hb
    simp only [List.mem_cons, List.mem_append, List.not_mem_nil, or_false] at hb
    rcases hb with rfl | rfl | hb | rfl | rfl
    · decide
    · decide
    · exact ha _ b hb
    · decide
    · decide
  simp only [exampleExpr, RopeExpr.Means, Bounds.lo, Bounds.hi]
  refine ⟨97 :: 97 :: (List.replicate n 97 ++ [10, 99]), _, [], List.replicate n 97 ++ [10, 99],
    ⟨_, [10, 99], ⟨utf8_ascii (ha _), rfl⟩, ⟨_, ⟨utf8_ascii (by decide), rfl⟩, by decide, boundary_ascii (by decide) (by decide),
      boundary_ascii (by decide) (by decide), by decide⟩, ?_⟩, ⟨⟨['é'], by decide⟩, rfl⟩, by omega, ⟨by omega, ?_, ?_, ?_⟩,
    ⟨?_, ?_, ?_, ?_⟩, ?_⟩
  · simp [List.replicate_succ]
  · exact boundary_ascii hx (by simp)
  · exact boundary_ascii hx (by simp)
  · simp
  · simp
  · exact boundary_ascii hx (by simp)
  · exact boundary_ascii hx (by simp)
  · rw [List.take_length]; rfl
  · simp

/-- The plain-sequence reading of an element of a tree delta. -/
def TreeDeltaElement.plain : TreeDeltaElement (List UInt8) RopeInfo → DeltaElement UInt8
  | .copy b e => .copy b e
  | .insert n => .insert n.text

/-- The copied ranges of a delta begin and end at character boundaries of the
base, and the inserted ropes are balanced. -/
def TreeDeltaElement.OkOn (base : List UInt8) : TreeDeltaElement (List UInt8) RopeInfo → Prop
  | .copy b e => CharBoundary base b ∧ CharBoundary base e
  | .insert n => n.Balanced

theorem applyTree_loop {base : Rope} (hb : base.Balanced) (els : List (TreeDeltaElement (List UInt8) RopeInfo)) :
    ∀ (b : TreeBuilder (List UInt8) RopeInfo) (acc t : List UInt8), b.Holds acc → (∀ el ∈ els, el.OkOn base.text) →
      (els.map TreeDeltaElement.plain).foldlM (Delta.applyEl base.text) acc = some t →
      ∃ b', els.foldlM (applyTreeEl base) b = some b' ∧ b'.Holds t := by
  have hu := Rope.text_utf8 hb
  induction els with
  | nil =>
    intro b acc t h1 _ h2
    simp at h2
    subst h2
    exact ⟨b, rfl, h1⟩
  | cons el els ih =>
    intro b acc t h1 hok h2
    have hel := hok el (by simp)
    have hrest : ∀ el ∈ els, el.OkOn base.text := fun x hx => hok x (by simp [hx])
    rw [List.map_cons, List.foldlM_cons] at h2
    cases el with
    | copy s e =>
      simp only [TreeDeltaElement.plain, Delta.applyEl, slice] at h2
      by_cases hse : s ≤ e ∧ e ≤ base.text.length
      · rw [if_pos hse] at h2
        simp only [Option.bind_eq_bind, Option.bind_some, Option.pure_def] at h2
        obtain ⟨b1, e1, h3⟩ := Node.pushSubseq_ok hb h1 (iv := ⟨s, e⟩) (fun _ => ⟨(cut_iff hu).2 hel.1, (cut_iff hu).2 hel.2⟩)
        obtain ⟨b', e2, h4⟩ := ih b1 _ t h3 hrest h2
        refine ⟨b', ?_, h4⟩
        rw [List.foldlM_cons]
        simp [applyTreeEl, Interval.new, hse.1, e1, e2]
      · rw [if_neg hse] at h2
        simp at h2
    | insert n =>
      simp only [TreeDeltaElement.plain, Delta.applyEl, Option.bind_eq_bind, Option.bind_some] at h2
      obtain ⟨k, hk⟩ := hel
      obtain ⟨b1, e1, h3⟩ := TreeBuilder.push_spec h1 hk
      obtain ⟨b', e2, h4⟩ := ih b1 _ t h3 hrest h2
      refine ⟨b', ?_, h4⟩
      rw [List.foldlM_cons]
      simp [applyTreeEl, e1, e2]

/-- **C01.** Applying a delta to a rope yields the same text as applying it to
the plain text (the delta properties C11-C17 are about the latter). -/
theorem C01_apply_delta (els : List (TreeDeltaElement (List UInt8) RopeInfo)) (base : Rope) (t : List UInt8)
    (hb : base.Balanced) (hok : ∀ el ∈ els, el.OkOn base.text)
    (h : Delta.apply ⟨els.map TreeDeltaElement.plain, base.text.length⟩ base.text = some t) :
    ∃ r, applyTree els base.text.length base = some r ∧ r.text = t ∧ r.Balanced := by
  obtain ⟨b, e1, h1⟩ := applyTree_loop hb els TreeBuilder.new [] t TreeBuilder.holds_new hok h
  obtain ⟨r, e2, h2, h3⟩ := TreeBuilder.build_spec h1
  exact ⟨r, by simp [applyTree, Rope.len_eq hb, e1, e2], h2, h3⟩

/-- **C01.** Deleting a subset of positions from a rope yields the same text as
deleting it from the plain text (see C07-C10 for the latter). -/
theorem C01_delete_from (s : Subset) (r : Rope) (t : List UInt8) (hr : r.Balanced)
    (hok : ∀ p ∈ s.rangeIter .zero, CharBoundary r.text p.1 ∧ CharBoundary r.text p.2) (h : s.deleteFrom r.text = some t) :
    ∃ r', s.deleteFromTree r = some r' ∧ r'.text = t ∧ r'.Balanced := by
  have hu := Rope.text_utf8 hr
  have key : ∀ (rs : List (Nat × Nat)) (b : TreeBuilder (List UInt8) RopeInfo) (acc : List UInt8), b.Holds acc →
      (∀ p ∈ rs, CharBoundary r.text p.1 ∧ CharBoundary r.text p.2) →
      rs.foldlM (fun acc p => (slice r.text p.1 p.2).bind (fun x => some (acc ++ x))) acc = some t →
      ∃ b', rs.foldlM (fun b p => (Interval.new p.1 p.2).bind (fun iv => r.pushSubseq b iv)) b = some b' ∧ b'.Holds t := by
    intro rs
    induction rs with
    | nil =>
      intro b acc h1 _ h2
      simp at h2
      subst h2
      exact ⟨b, rfl, h1⟩
    | cons p rs ih =>
      intro b acc h1 hok h2
      have hp := hok p (by simp)
      rw [List.foldlM_cons] at h2
      by_cases hse : p.1 ≤ p.2 ∧ p.2 ≤ r.text.length
      · rw [slice, if_pos hse] at h2
        simp only [Option.bind_eq_bind, Option.bind_some] at h2
        obtain ⟨b1, e1, h3⟩ := Node.pushSubseq_ok hr h1 (iv := ⟨p.1, p.2⟩) (fun _ => ⟨(cut_iff hu).2 hp.1, (cut_iff hu).2 hp.2⟩)
        obtain ⟨b', e2, h4⟩ := ih b1 _ h3 (fun x hx => hok x (by simp [hx])) h2
        refine ⟨b', ?_, h4⟩
        rw [List.foldlM_cons]
        simp only [Interval.new, hse.1, if_true, Option.bind_some, e1, Option.bind_eq_bind]
        exact e2
      · rw [slice, if_neg hse] at h2
        simp at h2
  obtain ⟨b, e1, h1⟩ := key _ _ _ TreeBuilder.holds_new hok (by simpa [Subset.deleteFrom] using h)
  obtain ⟨r', e2, h2, h3⟩ := TreeBuilder.build_spec h1
  exact ⟨r', by simp [Subset.deleteFromTree, e1, e2], h2, h3⟩

theorem leaves_ne_nil {h : Nat} : ∀ {n : Rope}, n.WF h → 1 ≤ n.leaves.length := by
  induction h with
  | zero =>
    intro n hw
    obtain ⟨l, rfl, -⟩ := hw.leafNode
    simp [Node.fromLeaf, Node.leaves]
  | succ h ih =>
    intro n hw
    obtain ⟨len, info, cs, rfl, hc2, -, hk⟩ := hw.kids
    rw [Node.leaves, leavesList_eq]
    match cs, hc2, hk with
    | c :: cs, _, hk =>
      have := ih (hk c (by simp)).1
      simp; omega

theorem leaves_many {h : Nat} : ∀ {n : Rope}, n.WF h → n.isOkChild = true → 4 ^ h ≤ n.leaves.length := by
  induction h with
  | zero => intro n hw _; simpa using leaves_ne_nil hw
  | succ h ih =>
    intro n hw hok
    obtain ⟨len, info, cs, rfl, -, -, hk⟩ := hw.kids
    have h4 : 4 ≤ cs.length := by simpa [Node.isOkChild, minChildren] using hok
    rw [Node.leaves, leavesList_eq]
    have key : ∀ l : List Rope, (∀ c ∈ l, c ∈ cs) → l.length * 4 ^ h ≤ (l.flatMap Node.leaves).length := by
      intro l hl
      induction l with
      | nil => simp
      | cons c l ih2 =>
        have h1 := ih (hk c (hl c (by simp))).1 (hk c (hl c (by simp))).2
        have h2 := ih2 (fun x hx => hl x (by simp [hx]))
        rw [List.flatMap_cons, List.length_append, List.length_cons, Nat.succ_mul]
        omega
    have h5 := key cs (fun _ h => h)
    have h6 : 4 * 4 ^ h ≤ cs.length * 4 ^ h := Nat.mul_le_mul_right _ h4
    rw [Nat.pow_succ, Nat.mul_comm]
    omega

theorem leaf_sizes {h : Nat} : ∀ {n : Rope}, n.WF h → n.isOkChild = true → ∀ l ∈ n.leaves, Utf8 l ∧ l.length ≤ 1024 ∧ 511 ≤ l.length := by
  induction h with
  | zero =>
    intro n hw hok l hl
    obtain ⟨l', rfl, h1⟩ := hw.leafNode
    simp only [Node.fromLeaf, Node.leaves, List.mem_singleton] at hl
    subst hl
    exact ⟨h1.1, h1.2, by simpa [Node.isOkChild, Node.fromLeaf, TreeLeaf.isOkChild] using hok⟩
  | succ h ih =>
    intro n hw _ l hl
    obtain ⟨len, info, cs, rfl, -, -, hk⟩ := hw.kids
    rw [Node.leaves, leavesList_eq] at hl
    obtain ⟨c, hc, hl⟩ := List.mem_flatMap.1 hl
    exact ih (hk c hc).1 (hk c hc).2 l hl

theorem balanced_leaves {r : Rope} (hr : r.Balanced) : LeafSizes r ∧ (∀ l ∈ r.leaves, Utf8 l) ∧
    (0 < r.height → 2 * 4 ^ (r.height - 1) * 511 ≤ r.text.length) := by
  obtain ⟨h, hw⟩ := hr
  cases h with
  | zero =>
    obtain ⟨l, rfl, h1⟩ := hw.leafNode
    simp only [LeafSizes, Node.fromLeaf, Node.leaves, Node.height, List.mem_singleton, List.length_singleton]
    refine ⟨?_, ?_, by omega⟩
    · rintro _ rfl
      exact ⟨h1.2, by simp⟩
    · rintro _ rfl
      exact h1.1
  | succ h =>
    rw [hw.height_eq]
    obtain ⟨len, info, cs, rfl, hc2, -, hk⟩ := hw.kids
    have hl : ∀ l ∈ (Node.internal (h + 1) len info cs : Rope).leaves, Utf8 l ∧ l.length ≤ 1024 ∧ 511 ≤ l.length := by
      intro l hl
      rw [Node.leaves, leavesList_eq] at hl
      obtain ⟨c, hc, hl⟩ := List.mem_flatMap.1 hl
      exact leaf_sizes (hk c hc).1 (hk c hc).2 l hl
    refine ⟨fun l hx => ⟨(hl l hx).2.1, fun _ => (hl l hx).2.2⟩, fun l hx => (hl l hx).1, fun _ => ?_⟩
    have h1 : 2 * 4 ^ h ≤ (Node.internal (h + 1) len info cs : Rope).leaves.length := by
      rw [Node.leaves, leavesList_eq]
      match cs, hc2, hk with
      | c :: d :: cs, _, hk =>
        have h1 := leaves_many (hk c (by simp)).1 (hk c (by simp)).2
        have h2 := leaves_many (hk d (by simp)).1 (hk d (by simp)).2
        simp only [List.flatMap_cons, List.length_append]
        omega
    have h2 : ∀ ls : List (List UInt8), (∀ l ∈ ls, 511 ≤ l.length) → ls.length * 511 ≤ (ls.flatMap (fun l => l)).length := by
      intro ls hls
      induction ls with
      | nil => simp
      | cons l ls ih =>
        have g1 := hls l (by simp)
        have g2 := ih (fun x hx => hls x (by simp [hx]))
        rw [List.flatMap_cons, List.length_append, List.length_cons, Nat.succ_mul]
        exact Nat.le_trans (Nat.add_le_add g2 g1) (Nat.le_of_eq (Nat.add_comm _ _))
    have h3 := h2 _ (fun l hx => (hl l hx).2.2)
    have h4 : (Node.internal (h + 1) len info cs : Rope).text.length =
      ((Node.internal (h + 1) len info cs : Rope).leaves.flatMap (fun l => l)).length := rfl
    rw [h4, Nat.add_sub_cancel]
    exact Nat.le_trans (Nat.mul_le_mul_right _ h1) h3

/-- **C02.** No history of rope operations with arguments in range panics (no
assertion fails, no index is out of range), and its result is a balanced tree
with correct cached lengths, heights and counts.  Every leaf but a lone one has
from 511 to 1024 bytes, and the height is logarithmic in the length. -/
theorem C02_balanced (e : RopeExpr) (t : List UInt8) (h : e.Means t) :
    ∃ r, e.eval = some r ∧ r.Balanced ∧ LeafSizes r ∧ (0 < r.height → 2 * 4 ^ (r.height - 1) * 511 ≤ t.length) := by
  obtain ⟨r, h1, rfl, h3⟩ := rope_expr_spec e t h
  exact ⟨r, h1, h3, (balanced_leaves h3).1, (balanced_leaves h3).2.2⟩

/-- **C02.** The cached fields of a rope are right: the length, the number of
newlines and the number of UTF-16 code units of its text. -/
theorem C02_caches (e : RopeExpr) (t : List UInt8) (h : e.Means t) :
    ∃ r, e.eval = some r ∧ r.len = t.length ∧ r.info = ⟨t.count newline, countUtf16CodeUnits t⟩ := by
  obtain ⟨r, h1, rfl, k, hw⟩ := rope_expr_spec e t h
  have h3 : r.info.lines = _ := hw.measure counts_lines
  have h4 : r.info.utf16Size = _ := hw.measure counts_utf16
  refine ⟨r, h1, hw.len_eq, ?_⟩
  rw [← h3, ← h4]

/-- **C03.** Every leaf of the result of any history is well-formed UTF-8: no
character is ever cut. -/
theorem C03_leaves_utf8 (e : RopeExpr) (t : List UInt8) (h : e.Means t) :
    ∃ r, e.eval = some r ∧ ∀ l ∈ r.leaves, Utf8 l ∧ l.length ≤ 1024 := by
  obtain ⟨r, h1, rfl, h3⟩ := rope_expr_spec e t h
  obtain ⟨h4, h5, -⟩ := balanced_leaves h3
  exact ⟨r, h1, fun l hl => ⟨h5 l hl, (h4 l hl).1⟩⟩

/-- **C03.** Where a long string is split when a rope is built from it. -/
theorem C03_bulk_split (s : List UInt8) (hs : Utf8 s) (hl : 1024 < s.length) :
    ∃ sp, findLeafSplitForBulk s = some sp ∧ CharBoundary s sp ∧ 511 ≤ sp ∧ sp ≤ 1024 ∧ 511 ≤ s.length - sp := by
  obtain ⟨sp, e, g1, g2, g3, -⟩ := findLeafSplit_spec hs (ms := 511) hl (by omega) (by omega)
  exact ⟨sp, e, (boundary_iff_spec hs).1 g1, g2, by omega, by omega⟩

/-- **C03.** What happens when a leaf is appended to another one, at least one
of them too small: they become one leaf, or they overflow and become two leaves of
admissible size, split at a character boundary. -/
theorem C03_merge_split (l m : List UInt8) (hl : Utf8 l) (hm : Utf8 m) (ll : l.length ≤ 1024) (lm : m.length ≤ 1024)
    (hnot : ¬ (511 ≤ l.length ∧ 511 ≤ m.length)) :
    (strPush l m ⟨0, m.length⟩ = some (l ++ m, none) ∧ (l ++ m).length ≤ 1024) ∨
    (∃ a r, strPush l m ⟨0, m.length⟩ = some (a, some r) ∧ a ++ r = l ++ m ∧ CharBoundary (l ++ m) a.length ∧
      511 ≤ a.length ∧ a.length ≤ 1024 ∧ 511 ≤ r.length ∧ r.length ≤ 1024) := by
  rcases strPush_whole hl hm ll lm hnot with h | ⟨a, r, h1, ⟨cs, h2⟩, ⟨ds, h3⟩, h4, h5, h6, h7, h8⟩
  · exact Or.inl h
  · exact Or.inr ⟨a, r, h1, h6, ⟨cs, ds, by rw [← h6, ← h2, ← h3], by rw [← h2]⟩, h7, h4, h8, h5⟩

example : Utf8 (List.replicate 700 97) ∧ (List.replicate 700 (97 : UInt8)).length ≤ 1024 ∧
    Utf8 (List.replicate 500 98) ∧ ¬ (511 ≤ (List.replicate 700 (97 : UInt8)).length ∧ 511 ≤ (List.replicate 500 (98 : UInt8)).length) := by
  refine ⟨utf8_ascii ?_, ?_, utf8_ascii ?_, ?_⟩
  · intro b hb; rw [List.eq_of_mem_replicate hb]; decide
  · rw [List.length_replicate]; omega
  · intro b hb; rw [List.eq_of_mem_replicate hb]; decide
  · rw [List.length_replicate, List.length_replicate]; omega

/-- **C04.** The line number of an offset is the number of newlines before it. -/
theorem C04_line_of_offset (r : Rope) (off : Nat) (hr : r.Balanced) (hoff : CharBoundary r.text off) :
    r.lineOfOffset off = some ((r.text.take off).count newline) := Rope.lineOfOffset_spec hr hoff

/-- **C04.** The offset of line 0 is 0, and that of line `n` is the place right
after the `n`-th newline: the character before it is a newline, and there are
exactly `n` newlines before it. -/
theorem C04_offset_of_line (r : Rope) (line : Nat) (hr : r.Balanced) (hline : line ≤ r.text.count newline) :
    ∃ off, r.offsetOfLine line = some off ∧ off ≤ r.text.length ∧ (r.text.take off).count newline = line ∧
      (line = 0 → off = 0) ∧ (0 < line → 0 < off ∧ r.text[off - 1]? = some newline) := by
  by_cases h0 : line = 0
  · subst h0
    exact ⟨0, Rope.offsetOfLine_zero, by omega, by simp, fun _ => rfl, by omega⟩
  · obtain ⟨o, h1, h2, h3, h4, h5⟩ := Rope.offsetOfLine_spec hr (by omega) hline
    exact ⟨o, h1, h2, h3, by omega, fun _ => ⟨h4, h5⟩⟩

/-- **C04.** For the line after the last it is the length of the text, and
beyond that `offset_of_line` panics, as documented. -/
theorem C04_offset_of_line_end (r : Rope) (line : Nat) (hr : r.Balanced) :
    (line = r.text.count newline + 1 → r.offsetOfLine line = some r.text.length) ∧
    (r.text.count newline + 1 < line → r.offsetOfLine line = none) :=
  ⟨fun h => by rw [h]; exact Rope.offsetOfLine_last hr, Rope.offsetOfLine_beyond hr⟩

/-- **C04** (deviation).  `line_of_offset` is documented to panic when the
offset is greater than the length.  On a rope of more than one leaf it does not:
the search starts again from the front, and the result is the number of newlines
of the whole text plus those before the excess. -/
theorem C04_out_of_range (r : Rope) (k : Nat) (hr : r.Balanced) (hh : 0 < r.height) (hk : 0 < k) (hlt : k < r.text.length)
    (hb : CharBoundary r.text k) :
    r.lineOfOffset (r.text.length + k) = some (r.text.count newline + (r.text.take k).count newline) := by
  have hu := Rope.text_utf8 hr
  have hr' := hr
  obtain ⟨h, hw⟩ := hr
  rw [hw.height_eq] at hh
  obtain ⟨h, rfl⟩ : ∃ j, h = j + 1 := ⟨h - 1, by omega⟩
  obtain ⟨len, info, cs, rfl, -, -, hkids⟩ := hw.kids
  rw [← boundary_iff_spec hu] at hb
  generalize hn : (Node.internal (h + 1) len info cs : Rope) = n at hu hlt hb hw hr' ⊢
  have ht : n.text = textList cs := by rw [← hn, text_internal]
  obtain ⟨l, pre, post, m', k1, k2, k3, k4, k5, k6, -, k8⟩ := Node.convertLoop_spec counts_base counts_lines (f := 0) (h + 1)
    (h + 1 + (n.text.length + k)) n k (n.text.count newline) hw (by omega) (by omega) (by omega)
  simp only [LeafSpec.content] at k4 k6
  have hlb : isCharBoundary l m' = true := by
    rw [k4, k5] at hb
    exact boundary_mid k2 k3 k1.1 (by omega) hb
  rw [lines_from_base_do l m' hlb] at k8
  have : Rope.lineOfOffset n (n.text.length + k) =
      Node.convertLoop baseMetric linesMetric 0 (h + 1 + (n.text.length + k)) n k (n.text.count newline) := by
    simp only [Rope.lineOfOffset, Node.count, Node.convertMetrics, hw.height_eq]
    rw [if_neg (by omega)]
    conv => lhs; rw [← hn]
    rw [show (Node.internal (h + 1) len info cs : Rope).text = textList cs from text_internal]
    simp only [show baseMetric.canFragment = false from rfl, Bool.false_eq_true, if_false, Node.convertLoop]
    rw [Node.convertScan_none counts_base counts_lines cs _ _ hkids (by omega)]
    simp only [Nat.add_sub_cancel_left, Nat.zero_add, hn, ht]
  rw [this, k8]
  rw [k4, k5, List.take_length_add_append, List.take_append_of_le_length (by omega)]
  simp only [List.count_append, Nat.add_assoc]

/-- **C05.** The line of the first offset of line `n` is `n`. -/
theorem C05_line_of_start (r : Rope) (line : Nat) (hr : r.Balanced) (hline : line ≤ r.text.count newline) :
    (r.offsetOfLine line).bind r.lineOfOffset = some line := by
  have hu := Rope.text_utf8 hr
  obtain ⟨o, h1, h2, h3, h4, h5⟩ := C04_offset_of_line r line hr hline
  have hb : CharBoundary r.text o := by
    rw [← boundary_iff_spec hu]
    by_cases h0 : line = 0
    · rw [h4 h0]; exact boundary_zero
    · obtain ⟨h6, h7⟩ := h5 (by omega)
      exact boundary_after_newline hu h6 h7
  rw [h1, Option.bind_some, Rope.lineOfOffset_spec hr hb, h3]

theorem count_take_mono {s : List UInt8} {i j : Nat} (h : i ≤ j) : (s.take i).count newline ≤ (s.take j).count newline := by
  obtain ⟨d, rfl⟩ := Nat.le.dest h
  rw [List.take_add, List.count_append]; omega

theorem count_take_lt {s : List UInt8} {i j : Nat} (h : i < j) (hj : s[j - 1]? = some newline) :
    (s.take i).count newline < (s.take j).count newline := by
  obtain ⟨j, rfl⟩ : ∃ k, j = k + 1 := ⟨j - 1, by omega⟩
  rw [Nat.add_sub_cancel] at hj
  have := count_take_mono (s := s) (show i ≤ j by omega)
  rw [List.take_add_one, hj, List.count_append]
  simp; omega

/-- **C05.** Every offset lies in its line: not before the first offset of the
line, and before the first offset of the next line, or, in the last line, not
after the end of the text. -/
theorem C05_offset_in_line (r : Rope) (off : Nat) (hr : r.Balanced) (hoff : CharBoundary r.text off) :
    ∃ line s e, r.lineOfOffset off = some line ∧ r.offsetOfLine line = some s ∧ r.offsetOfLine (line + 1) = some e ∧
      s ≤ off ∧ (off < e ∨ (line = r.text.count newline ∧ off ≤ e ∧ e = r.text.length)) := by
  have hu := Rope.text_utf8 hr
  have hle : off ≤ r.text.length := ((cut_iff hu).2 hoff).1
  have hc : (r.text.take off).count newline ≤ r.text.count newline := by
    have := count_take_mono (s := r.text) hle
    rwa [List.take_length] at this
  refine ⟨(r.text.take off).count newline, ?_⟩
  obtain ⟨s, h1, h2, h3, h4, h5⟩ := C04_offset_of_line r _ hr hc
  have hs : s ≤ off := by
    rcases Nat.lt_or_ge off s with h | h
    · have h0 : 0 < (r.text.take off).count newline := by
        rcases Nat.eq_zero_or_pos ((r.text.take off).count newline) with h0 | h0
        · have := h4 h0; omega
        · exact h0
      have := count_take_lt h (h5 h0).2
      omega
    · exact h
  by_cases hlast : (r.text.take off).count newline = r.text.count newline
  · exact ⟨s, r.text.length, Rope.lineOfOffset_spec hr hoff, h1, by rw [hlast]; exact Rope.offsetOfLine_last hr, hs,
      Or.inr ⟨hlast, hle, rfl⟩⟩
  · obtain ⟨e, g1, g2, g3, g4, g5⟩ := C04_offset_of_line r ((r.text.take off).count newline + 1) hr (by omega)
    refine ⟨s, e, Rope.lineOfOffset_spec hr hoff, h1, g1, hs, Or.inl ?_⟩
    rcases Nat.lt_or_ge off e with h | h
    · exact h
    · have := count_take_mono (s := r.text) h
      omega

/-- **C51.** The number of UTF-16 code units before an offset, and the cached
number for the whole text, are those of the characters of the text. -/
theorem C51_utf16_count (r : Rope) (cs ds : List Char) (hr : r.Balanced)
    (ht : r.text = cs.flatMap String.utf8EncodeChar ++ ds.flatMap String.utf8EncodeChar) :
    r.count utf16Metric (cs.flatMap String.utf8EncodeChar).length = some (cs.map utf16Len).sum ∧
    r.measure utf16Metric = ((cs ++ ds).map utf16Len).sum := by
  refine ⟨?_, ?_⟩
  · rw [Node.count_spec hr counts_utf16 utf16_from_base ⟨cs, ds, ht, rfl⟩, ht, List.take_left, utf16_text]
  · obtain ⟨h, hw⟩ := hr
    rw [hw.measure counts_utf16, ht, ← List.flatMap_append, utf16_text]

/-- **C51.** The offset of a number of UTF-16 code units: after the shortest
sequence of characters at the front of the text that has at least that many. -/
theorem C51_utf16_offset (r : Rope) (m : Nat) (hr : r.Balanced) (hm : m ≤ r.measure utf16Metric) :
    ∃ cs ds : List Char, r.text = cs.flatMap String.utf8EncodeChar ++ ds.flatMap String.utf8EncodeChar ∧
      r.countBaseUnits utf16Metric m = some (cs.flatMap String.utf8EncodeChar).length ∧ m ≤ (cs.map utf16Len).sum ∧
      ∀ cs' c, cs = cs' ++ [c] → (cs'.map utf16Len).sum < m := by
  have hm' : m ≤ countUtf16CodeUnits r.text := by
    obtain ⟨h, hw⟩ := hr
    rwa [hw.measure counts_utf16] at hm
  have hu := Rope.text_utf8 hr
  obtain ⟨o, h1, h2, h3, h4, h5⟩ := Node.countBaseUnits_utf16 hr hm'
  obtain ⟨cs, ds, e1, rfl⟩ := (boundary_iff_spec hu).1 h3
  refine ⟨cs, ds, e1, h1, ?_, ?_⟩
  · rw [e1, List.take_left, utf16_text] at h4
    exact h4
  · rintro cs' c rfl
    have hlt : (cs'.flatMap String.utf8EncodeChar).length < ((cs' ++ [c]).flatMap String.utf8EncodeChar).length := by
      have := encode_pos c
      rw [List.flatMap_append, List.length_append, List.flatMap_cons, List.flatMap_nil, List.append_nil]; omega
    have hb : CharBoundary r.text (cs'.flatMap String.utf8EncodeChar).length :=
      ⟨cs', c :: ds, by rw [e1]; simp, rfl⟩
    have := h5 _ hlt ((boundary_iff_spec hu).2 hb)
    rw [e1] at this
    simp only [List.flatMap_append, List.append_assoc] at this
    rwa [List.take_left, utf16_text] at this

/-- **C51.** At character boundaries the two conversions are inverse. -/
theorem C51_utf16_inverse (r : Rope) (off : Nat) (hr : r.Balanced) (hoff : CharBoundary r.text off) :
    (r.count utf16Metric off).bind (r.countBaseUnits utf16Metric) = some off := by
  have hu := Rope.text_utf8 hr
  have hle : off ≤ r.text.length := ((cut_iff hu).2 hoff).1
  rw [Node.count_spec hr counts_utf16 utf16_from_base hoff, Option.bind_some]
  have hm : countUtf16CodeUnits (r.text.take off) ≤ countUtf16CodeUnits r.text := by
    have := utf16_mono (s := r.text) hle
    rwa [List.take_length] at this
  obtain ⟨o, h1, h2, h3, h4, h5⟩ := Node.countBaseUnits_utf16 hr hm
  have hb := (boundary_iff_spec hu).2 hoff
  rw [h1]
  rcases Nat.lt_trichotomy o off with h | h | h
  · have := utf16_strict hu h h3 hle
    omega
  · rw [h]
  · have := h5 off h hb
    omega

/-- A rope of two leaves. -/
def exampleRope : Rope :=
  .internal 1 1200 ⟨2, 1199⟩ [.fromLeaf (List.replicate 599 97 ++ [10]), .fromLeaf ([0xc3, 0xa9] ++ List.replicate 597 98 ++ [10])]

theorem exampleRope_text : exampleRope.text = List.replicate 599 97 ++ [10] ++ ([0xc3, 0xa9] ++ List.replicate 597 98 ++ [10]) := by
  rw [exampleRope, text_internal, textList_cons, textList_cons, textList_nil, Node.text_fromLeaf, Node.text_fromLeaf, List.append_nil]
  rfl

theorem exampleRope_balanced : exampleRope.Balanced := by
  have ha : ∀ n (x : UInt8), x.toNat < 128 → ∀ b ∈ List.replicate n x ++ [10], b.toNat < 128 := by
    intro n x hx b hb
    rcases List.mem_append.1 hb with hb | hb
    · rw [List.eq_of_mem_replicate hb]; exact hx
    · simp at hb; subst hb; decide
  refine ⟨1, ?_⟩
  simp only [exampleRope, Node.WF]
  refine ⟨trivial, by decide, by decide, ?_, ?_, _, _, rfl, ?_⟩
  · intro c hc
    simp only [List.mem_cons, List.not_mem_nil, or_false] at hc
    rcases hc with rfl | rfl
    · refine ⟨Node.wf_fromLeaf ⟨utf8_ascii (ha 599 97 (by decide)), ?_⟩, ?_⟩
      · rw [List.length_append, List.length_replicate]; decide
      · simp only [Node.fromLeaf, Node.isOkChild, TreeLeaf.isOkChild]
        rw [List.length_append, List.length_replicate]; decide
    · refine ⟨Node.wf_fromLeaf ⟨?_, ?_⟩, ?_⟩
      · rw [List.append_assoc]
        exact utf8_append ⟨['é'], by decide⟩ (utf8_ascii (ha 597 98 (by decide)))
      · rw [List.length_append, List.length_append, List.length_replicate]; decide
      · simp only [Node.fromLeaf, Node.isOkChild, TreeLeaf.isOkChild]
        rw [List.length_append, List.length_append, List.length_replicate]; decide
  · simp only [Node.fromLeaf, List.map_cons, List.map_nil, Node.len, TreeLeaf.len, List.length_append, List.length_replicate]
    decide
  · decide +kernel

example : exampleRope.Balanced ∧ 0 < exampleRope.height ∧ CharBoundary exampleRope.text 602 ∧
    exampleRope.text.count newline = 2 ∧ exampleRope.measure utf16Metric = 1199 := by
  refine ⟨exampleRope_balanced, by decide, ?_, ?_, rfl⟩
  · rw [← boundary_iff_spec (Rope.text_utf8 exampleRope_balanced), exampleRope_text]
    decide +kernel
  · rw [exampleRope_text]; decide +kernel

end Xi
