import Verif.Rope.DiffLemmas

/-!
# When cutting a rope panics

Cutting a rope inside a character panics, on whatever path of the tree.  So a diff
that is computed without a panic is right.
-/

namespace Xi

open Cursor

theorem boundary_left {a b : List UInt8} (ha : Utf8 a) (hb : Utf8 b) {i : Nat} (hi : i ≤ a.length) : CharBoundary (a ++ b) i ↔ CharBoundary a i := by
  have := charBoundary_inner (a := []) (k := i) utf8_nil ha hb hi
  simpa using this

theorem boundary_right {a b : List UInt8} (ha : Utf8 a) (hb : Utf8 b) {k : Nat} (hk : k ≤ b.length) : CharBoundary (a ++ b) (a.length + k) ↔ CharBoundary b k := by
  have := charBoundary_inner (k := k) ha hb utf8_nil hk
  simpa using this

/-- `push_subseq` panics on an interval that ends inside a character, for the nodes
of one height. -/
def SubseqPanics (h : Nat) : Prop :=
  ∀ (n : Rope) (b : TreeBuilder (List UInt8) RopeInfo) (iv : Interval), n.WF h → iv.start < iv.stop → iv.stop ≤ n.text.length →
    ¬ CharBoundary n.text iv.stop → n.pushSubseq b iv = none

theorem pushSubseqList_panics {h : Nat} (ih : SubseqPanics h) (cs : List Rope) : ∀ (b : TreeBuilder (List UInt8) RopeInfo) (iv : Interval) (o : Nat),
    (∀ c ∈ cs, c.WF h) → iv.start < iv.stop → o ≤ iv.stop → iv.stop ≤ o + (textList cs).length → ¬ CharBoundary (textList cs) (iv.stop - o) →
    Node.pushSubseqList cs b iv o = none := by
  induction cs with
  | nil =>
    intro b iv o _ _ h1 h2 h3
    exfalso
    simp [textList] at h2
    apply h3
    rw [show iv.stop - o = 0 from by omega]
    exact (boundary_iff_spec utf8_nil).1 boundary_zero
  | cons c cs ihc =>
    intro b iv o hw hne ho hle hnb
    simp only [Node.pushSubseqList]
    have hwc := hw c (by simp)
    have hws : ∀ c ∈ cs, c.WF h := fun c hx => hw c (by simp [hx])
    have hvs : Utf8 (textList cs) := textList_valid hws
    have hvc : Utf8 c.text := hwc.valid
    have hlen := hwc.len_eq
    rw [textList_cons] at hnb hle
    rw [List.length_append] at hle
    rw [if_neg (by
      simp only [Interval.isBefore, decide_eq_true_eq]
      intro hb
      apply hnb
      rw [show iv.stop - o = 0 from by omega]
      exact (boundary_iff_spec (utf8_append hvc hvs)).1 boundary_zero)]
    have hrec : (iv.intersect (c.interval.translate o)).translateNeg o =
        some ⟨iv.start - o, max (iv.start - o) (min (iv.stop - o) c.text.length)⟩ := by
      simp only [Interval.intersect, Node.interval, Interval.translate, Interval.translateNeg, hlen]
      rw [if_pos (by omega)]
      simp only [Option.some.injEq, Interval.mk.injEq]
      omega
    simp only [hrec, Option.bind_eq_bind, Option.bind_some]
    by_cases hin : iv.stop - o ≤ c.text.length
    · rw [boundary_left hvc hvs hin] at hnb
      have hpos : iv.stop - o ≠ 0 := by
        intro h0
        apply hnb
        rw [h0]
        exact (boundary_iff_spec hvc).1 boundary_zero
      rw [ih c b _ hwc (by simp only; omega) (by simp only; omega) (by
        simp only
        rw [show max (iv.start - o) (min (iv.stop - o) c.text.length) = iv.stop - o from by omega]
        exact hnb)]
      rfl
    · rw [show iv.stop - o = c.text.length + (iv.stop - (o + c.len)) from by omega, boundary_right hvc hvs (by omega)] at hnb
      cases c.pushSubseq b ⟨iv.start - o, max (iv.start - o) (min (iv.stop - o) c.text.length)⟩ with
      | none => rfl
      | some b' =>
        simp only [Option.bind_some]
        exact ihc b' iv _ hws hne (by omega) (by omega) hnb

theorem pushSubseq_panics (h : Nat) : SubseqPanics h := by
  induction h with
  | zero =>
    intro n b iv hw hne hle hnb
    obtain ⟨l, rfl, ho⟩ := hw.leafNode
    rw [Node.text_fromLeaf] at hle hnb
    change iv.stop ≤ l.length at hle
    change ¬ CharBoundary l iv.stop at hnb
    have hu : Utf8 l := ho.1
    rw [← boundary_iff_spec hu] at hnb
    rw [show (Node.fromLeaf l : Rope) = .leaf (TreeLeaf.len l) (TreeLeaf.computeInfo l) l from rfl, Node.pushSubseq]
    rw [if_neg (by simp only [Interval.isEmpty, decide_eq_true_eq]; omega), if_neg (by
      intro e
      apply hnb
      rw [e]
      exact boundary_length)]
    simp only [TreeBuilder.pushLeafSlice, TreeLeaf.subseq]
    have : strSlice l iv.start iv.stop = none := by
      simp [strSlice, hnb]
    simp [TreeLeaf.push, strPush, this]
  | succ h ih =>
    intro n b iv hw hne hle hnb
    have hlen := hw.len_eq
    have hu : Utf8 n.text := hw.valid
    obtain ⟨len, info, cs, rfl, l2, l8, hk⟩ := hw.kids
    rw [Node.pushSubseq, if_neg (by simp only [Interval.isEmpty, decide_eq_true_eq]; omega), if_neg (by
      intro e
      have e2 : iv.stop = (Node.internal (h + 1) len info cs : Rope).text.length := by
        rw [← hlen]; exact congrArg Interval.stop e
      exact hnb (e2 ▸ (boundary_iff_spec hu).1 boundary_length))]
    rw [text_internal] at hnb hle
    exact pushSubseqList_panics ih cs b iv 0 (fun c hc => (hk c hc).1) hne (by omega) (by omega) (by simpa using hnb)

theorem subseq_panics {n : Rope} (hn : n.Balanced) {p q : Nat} (hpq : p < q) (hq : q ≤ n.text.length) (hb : ¬ CharBoundary n.text q) :
    n.subseq ⟨p, q⟩ = none := by
  obtain ⟨h, hw⟩ := hn
  simp [Node.subseq, pushSubseq_panics h n _ ⟨p, q⟩ hw hpq hq hb]

/-! The lines of a part of a rope that ends inside a character -/

namespace ChunkIter

/-- A chunk iterator that is going to panic. -/
structure Bad (it : ChunkIter) : Prop where
  stop : it.stop ≤ it.cursor.root.text.length
  bound : isCharBoundary it.cursor.root.text it.stop = false
  lt : it.cursor.position < it.stop
  cursor : ∃ pre l post, it.cursor.Valid pre l post

theorem next_bad {it : ChunkIter} (h : it.Bad) : it.next = none ∨ ∃ it' chunk, it.next = some (it', some chunk) ∧ it'.Bad ∧ chunk ≠ [] := by
  obtain ⟨c, e⟩ := it
  obtain ⟨hstop, hbound, hlt, pre, l, post, hv⟩ := h
  simp only at hstop hbound hlt hv
  have hat : c.At pre l post := hv.toAt
  have hcl : LeafSpec.content (L := List UInt8) l = l := rfl
  have htext := hat.text
  have hrl : c.root.text.length = lenOf pre + (l.length + lenOf post) := by
    rw [htext]; simp [lenOf, hcl]
  have hlo := hv.lo
  have hhi : c.position < lenOf pre + l.length := by
    rcases hv.hi with h1 | ⟨h1, h2⟩
    · exact h1
    · subst h1
      rw [hcl] at h2
      simp at hrl; omega
  have hgl : c.getLeaf = some (some (l, c.position - lenOf pre)) := by
    simp [Cursor.getLeaf, hat.leaf, hat.off, hlo]
  have hlt' : ¬ l.length < c.position - lenOf pre := by omega
  simp only [next]
  rw [if_neg (by omega)]
  simp only [hgl, Option.bind_eq_bind, Option.bind_some, if_neg hlt']
  obtain ⟨n, hw⟩ := hat.balanced
  have hoks : ∀ x ∈ pre ++ l :: post, LeafSpec.ok (L := List UInt8) x := by
    rw [← hat.leaves]; exact leaf_ok hw
  have hu : Utf8 c.root.text := hw.valid
  have u1 : Utf8 (pre.flatMap (LeafSpec.content (L := List UInt8))) := leaves_utf8 (fun x hx => hoks x (by simp [hx]))
  have u2 : Utf8 (post.flatMap (LeafSpec.content (L := List UInt8))) := leaves_utf8 (fun x hx => hoks x (by simp [hx]))
  have u3 : Utf8 l := (hoks l (by simp)).1
  by_cases hin : e ≤ lenOf pre + l.length
  · left
    have hnb : isCharBoundary l (e - lenOf pre) = false := by
      rw [Bool.eq_false_iff] at hbound ⊢
      rw [Ne, boundary_iff_spec hu] at hbound
      rw [Ne, boundary_iff_spec u3]
      intro hb
      apply hbound
      rw [htext, hcl, show e = (pre.flatMap (LeafSpec.content (L := List UInt8))).length + (e - lenOf pre) from by simp only [lenOf] at *; omega]
      exact (charBoundary_inner u1 u3 u2 (by omega)).2 hb
    rw [Nat.min_eq_left (by omega), show c.position - lenOf pre + (e - c.position) = e - lenOf pre from by omega]
    cases c.nextLeaf with
    | none => rfl
    | some x =>
      have : strSlice l (c.position - lenOf pre) (e - lenOf pre) = none := by simp [strSlice, hnb]
      simp [this]
  · cases post with
    | nil => simp at hrl; omega
    | cons m post =>
      obtain ⟨c', g1, g2, g3, g4⟩ := Cursor.nextLeaf_some hat
      have hp : lenOf (pre ++ [l]) = lenOf pre + l.length := by simp [lenOf_append, lenOf_cons, hcl]
      have hm := hat.pos (.inr (by simp)) m (by simp)
      rw [g1]
      simp only [Option.bind_some]
      cases hs : strSlice l (c.position - lenOf pre) (c.position - lenOf pre + min (e - c.position) (l.length - (c.position - lenOf pre))) with
      | none => left; rfl
      | some chunk =>
        right
        refine ⟨⟨c', e⟩, chunk, rfl, ⟨by rw [g3]; exact hstop, by rw [g3]; exact hbound, by simp only [g4, hp]; omega,
          pre ++ [l], m, post, g2, by simp only [g4]; omega, .inl (by simp only [g4]; omega)⟩, ?_⟩
        unfold strSlice at hs
        split at hs
        · intro h0
          subst h0
          have := congrArg List.length (Option.some.inj hs)
          simp at this
          omega
        · cases hs

end ChunkIter

namespace LinesRaw

theorem fetch_bad {it : LinesRaw} (h : it.inner.Bad) : it.fetch = none ∨ ∃ it', it.fetch = some (it', .ready) ∧ it'.inner.Bad := by
  unfold fetch
  by_cases hf : it.fragment.isEmpty = true
  · rw [if_pos hf]
    rcases ChunkIter.next_bad h with e | ⟨it', chunk, e, h1, h2⟩
    · left; simp [e]
    · right
      refine ⟨⟨it', chunk⟩, ?_, h1⟩
      simp [e, h2]
  · rw [if_neg hf]
    exact .inr ⟨it, rfl, h⟩

theorem nextLoop_bad (fuel : Nat) : ∀ {it : LinesRaw} (r : List UInt8), it.inner.Bad →
    it.nextLoop fuel r = none ∨ ∃ it' line, it.nextLoop fuel r = some (it', some line) ∧ it'.inner.Bad := by
  induction fuel with
  | zero => intro it r _; left; rfl
  | succ fuel ih =>
    intro it r h
    unfold nextLoop
    rcases fetch_bad h with e | ⟨it', e, h1⟩
    · left; simp [e]
    · simp only [e, Option.bind_eq_bind, Option.bind_some]
      cases memchr newline it'.fragment with
      | none => exact ih _ (it := ⟨it'.inner, []⟩) h1
      | some i =>
        simp only
        cases strSlice it'.fragment 0 (i + 1) with
        | none => left; rfl
        | some a =>
          cases strSlice it'.fragment (i + 1) it'.fragment.length with
          | none => left; rfl
          | some b => right; exact ⟨_, _, rfl, h1⟩

theorem collect_bad (fuel : Nat) : ∀ {it : LinesRaw}, it.inner.Bad → it.collect fuel = none := by
  induction fuel with
  | zero => intro it _; rfl
  | succ fuel ih =>
    intro it h
    unfold collect next
    rcases nextLoop_bad (it.inner.stop + 2) [] h with e | ⟨it', line, e, h1⟩
    · simp [e]
    · simp [e, ih h1]

end LinesRaw

theorem linesRaw_panics {r : Rope} (hr : r.Balanced) {s e : Nat} (hse : s < e) (he : e ≤ r.text.length) (hb : ¬ CharBoundary r.text e) :
    r.linesRaw (.range s e) = none := by
  have hu := Rope.text_utf8 hr
  obtain ⟨c, pre, l, post, h1, h2, h3, h4⟩ := Cursor.new_spec hr (p := s) (by omega)
  rw [← boundary_iff_spec hu] at hb
  have hlen := Rope.len_eq hr
  have hbad : (⟨c, e⟩ : ChunkIter).Bad := ⟨by simp only [h3]; exact he, by simp only [h3]; simpa using hb, by simp only [h4]; exact hse, pre, l, post, h2⟩
  simp only [Rope.linesRaw, Rope.iterChunks, Bounds.intoInterval, Interval.new, if_pos (Nat.le_of_lt hse)]
  simp only [h1, Option.bind_eq_bind, Option.bind_some, Option.pure_def]
  exact LinesRaw.collect_bad _ (it := ⟨⟨c, e⟩, []⟩) hbad

/-! Diffs -/

namespace Diff

/-- Among the copies there is one that begins inside a character, and everything
before it is right. -/
def OpsBad (B T : List UInt8) (ops : List DiffOp) : Prop :=
  ∃ pre op post q, ops = pre ++ op :: post ∧ OpsOk B T pre q ∧ q < op.targetIdx ∧ op.targetIdx ≤ T.length ∧ ¬ CharBoundary T op.targetIdx

theorem copy_bad {B T : List UInt8} {ops ops' : List DiffOp} {b t l : Nat} (h : OpsBad B T ops) (hc : copy ops b t l = some ops') : OpsBad B T ops' := by
  obtain ⟨pre, op, post, q, rfl, h1, h2, h3, h4⟩ := h
  unfold copy at hc
  rcases List.eq_nil_or_concat post with rfl | ⟨post, z, rfl⟩
  · rw [List.getLast?_concat] at hc
    simp only at hc
    split at hc
    · split at hc
      · rw [List.dropLast_concat] at hc
        cases hc
        exact ⟨pre, _, [], q, rfl, h1, h2, h3, h4⟩
      · cases hc
        exact ⟨pre, op, [⟨t, b, l⟩], q, by simp, h1, h2, h3, h4⟩
    · cases hc
  · have e : pre ++ op :: post.concat z = (pre ++ op :: post) ++ [z] := by simp
    rw [e, List.getLast?_concat] at hc
    simp only at hc
    split at hc
    · split at hc
      · rw [List.dropLast_concat] at hc
        cases hc
        exact ⟨pre, op, post ++ [_], q, by rw [List.append_assoc]; rfl, h1, h2, h3, h4⟩
      · cases hc
        exact ⟨pre, op, post ++ [z, ⟨t, b, l⟩], q, by simp, h1, h2, h3, h4⟩
    · cases hc

theorem toDelta_bad {base target : Rope} (hb : base.Balanced) (ht : target.Balanced) {ops : List DiffOp} (h : OpsBad base.text target.text ops) :
    toDelta ops base target = none := by
  obtain ⟨pre, op, post, q, rfl, h1, h2, h3, h4⟩ := h
  obtain ⟨els, e, -⟩ := toDelta_loop hb ht h1
  unfold toDelta
  rw [List.foldlM_append, e]
  simp [List.foldlM_cons, toDeltaStep, h2, Interval.new, Nat.le_of_lt h2, subseq_panics ht h2 h3 h4]

theorem expandStep_bad {base target : Rope} {B T : List UInt8} {e : Nat} {st st' : List DiffOp × Nat} {m : Nat × Nat} (h : OpsBad B T st.1)
    (hs : expandStep base target e st m = some st') : OpsBad B T st'.1 := by
  unfold expandStep at hs
  split at hs
  · cases hs; exact h
  · simp only [Option.bind_eq_bind, Option.bind_eq_some_iff, Option.pure_def, Option.some.injEq] at hs
    obtain ⟨⟨a, b⟩, -, c, -, d, -, f, -, g, hg, rfl⟩ := hs
    exact copy_bad h hg

theorem expandStep_any {base target : Rope} (hb : base.Balanced) (ht : target.Balanced) {e : Nat}
    (he : isCharBoundary target.text e = true) {ops : List DiffOp} {p : Nat} (h : OpsOk base.text target.text ops p) (hp : p ≤ e)
    {m : Nat × Nat} (hm : MatchOk base.text target.text e m) :
    ∃ ops' p', expandStep base target e (ops, p) m = some (ops', p') ∧ ((OpsOk base.text target.text ops' p' ∧ p' ≤ e) ∨ OpsBad base.text target.text ops') := by
  have hB := Rope.text_utf8 hb
  have hT := Rope.text_utf8 ht
  unfold expandStep
  by_cases hlt : m.1 ≤ p
  · rw [if_pos hlt]; exact ⟨ops, p, rfl, .inl ⟨h, hp⟩⟩
  · rw [if_neg hlt]
    obtain ⟨m1, m2, m3⟩ := hm
    have hpb := (boundary_iff_spec hT).2 (h.boundary hT)
    obtain ⟨l, r, ex, h1, h2, h3, -⟩ := expandMatch_spec hb ht m2 m1 hpb (by omega)
    have hlb : l ≤ m.2 := by
      have := h2.1
      rw [List.length_take] at this; omega
    simp only [ex, Option.bind_eq_bind, Option.bind_some, usizeSub_le m3, usizeSub_le (show l ≤ m.1 by omega), usizeSub_le hlb]
    have hr' : min r (e - m.1) ≤ (target.text.drop m.1).length := by have := h3.2.1; omega
    have ur : isCharBoundary target.text (m.1 + min r (e - m.1)) = true := by
      by_cases hre : r ≤ e - m.1
      · rw [Nat.min_eq_left hre]
        refine prefix_boundary hT m1 h3.2.1 ?_
        rw [← h3.2.2.1]; exact h3.2.2.2
      · rw [Nat.min_eq_right (by omega), Nat.add_sub_cancel' m3]; exact he
    by_cases hl : isCharBoundary target.text (m.1 - l) = true
    · have hgood := piece_good hB hT m2 m1 h2 hl (r := min r (e - m.1)) ⟨by have := h3.1; omega, hr', by
        have := congrArg (List.take (min r (e - m.1))) h3.2.2.1
        rwa [List.take_take, List.take_take, Nat.min_eq_left (by omega)] at this⟩ ur
      obtain ⟨ops', ec, hc⟩ := copy_spec h (t := m.1 - l) (by omega) hgood
      exact ⟨ops', _, by simp [ec], .inl ⟨hc, by omega⟩⟩
    · have hne : p ≠ m.1 - l := by
        intro e
        rw [← e] at hl
        exact hl hpb
      have hlen := ((boundary_iff hT).1 m1).1
      have hbad : ∀ b len, OpsBad base.text target.text (ops ++ [⟨m.1 - l, b, len⟩]) := fun b len =>
        ⟨ops, ⟨m.1 - l, b, len⟩, [], p, rfl, h, by simp only; omega, by simp only; omega, by simp only; rw [← boundary_iff_spec hT]; exact hl⟩
      have hcopy : ∀ b len, copy ops b (m.1 - l) len = some (ops ++ [⟨m.1 - l, b, len⟩]) := by
        intro b len
        cases h with
        | nil => rfl
        | @snoc ops p op k1 k2 k3 =>
          unfold copy
          rw [List.getLast?_concat]
          simp only
          rw [if_pos (by omega), if_neg (by omega)]
      exact ⟨_, m.1 - l + (l + min r (e - m.1)), by rw [hcopy]; rfl, .inr (hbad _ _)⟩

theorem expandLoop_any {base target : Rope} (hb : base.Balanced) (ht : target.Balanced) {e : Nat}
    (he : isCharBoundary target.text e = true) (ms : List (Nat × Nat)) : ∀ {st st' : List DiffOp × Nat},
    ((OpsOk base.text target.text st.1 st.2 ∧ st.2 ≤ e) ∨ OpsBad base.text target.text st.1) →
    (∀ m ∈ ms, MatchOk base.text target.text e m) → ms.foldlM (expandStep base target e) st = some st' →
    (OpsOk base.text target.text st'.1 st'.2 ∧ st'.2 ≤ e) ∨ OpsBad base.text target.text st'.1 := by
  induction ms with
  | nil =>
    intro st st' h _ hs
    cases hs
    exact h
  | cons m ms ih =>
    intro st st' h hm hs
    rw [List.foldlM_cons] at hs
    simp only [Option.bind_eq_bind, Option.bind_eq_some_iff] at hs
    obtain ⟨st1, hs1, hs2⟩ := hs
    refine ih ?_ (fun x hx => hm x (by simp [hx])) hs2
    rcases h with ⟨h1, h2⟩ | h1
    · obtain ⟨o, p, e1, h3⟩ := expandStep_any hb ht he h1 h2 (hm m (by simp))
      cases e1.symm.trans hs1
      exact h3
    · exact .inr (expandStep_bad h1 hs1)

/-- If `compute_delta` does not panic, its delta leads from the base to the target. -/
theorem computeDelta_any {base target : Rope} (hb : base.Balanced) (ht : target.Balanced) {x : List (TreeDeltaElement (List UInt8) RopeInfo) × Nat}
    (h : computeDelta base target = some x) : x.2 = base.len ∧ Reached base.text target.text x.1 target.text.length := by
  have hB := Rope.text_utf8 hb
  have hT := Rope.text_utf8 ht
  obtain ⟨s, start, d, e1, e2, h1, h2, h3, h4, -⟩ := findMinDiffRange_spec hb ht
  obtain ⟨ops, e3, ho⟩ := firstCopy_spec hB hT h1.1
  have hlb := Rope.len_eq hb
  have hlt := Rope.len_eq ht
  obtain ⟨k1, k2, k3, k4⟩ := h1.1
  have fin : ∀ {ops p}, OpsOk base.text target.text ops p → toDelta ops base target = some x →
      x.2 = base.len ∧ Reached base.text target.text x.1 target.text.length := by
    intro ops p h hx
    obtain ⟨els, e, hr⟩ := toDelta_spec hb ht h
    cases e.symm.trans hx
    exact ⟨rfl, hr⟩
  unfold computeDelta at h
  simp only [e1, e2, e3, Option.bind_eq_bind, Option.bind_some, usizeSub_le (show d ≤ target.len by omega), usizeSub_le (show d ≤ base.len by omega)] at h
  have hstT : isCharBoundary target.text start = true := (boundary_iff_spec hT).2 (ho.boundary hT)
  have hstB : isCharBoundary base.text start = true := by
    have := prefix_boundary hB boundary_zero (r := start) (by simpa using k1) (by simpa using k4)
    simpa using this
  have good : isCharBoundary target.text (target.text.length - d) = true →
      ∃ ops', copy ops (base.len - d) (target.len - d) d = some ops' ∧ OpsOk base.text target.text ops' (target.text.length - d + d) := by
    intro h5
    obtain ⟨ops', e4, ho'⟩ := copy_spec ho (t := target.text.length - d) (by omega) (tail_good hB hT h2 h5)
    rw [← hlb, ← hlt] at e4
    exact ⟨ops', e4, ho'⟩
  by_cases c1 : start = base.len ∧ target.len = base.len
  · rw [if_pos c1] at h; exact fin ho h
  · rw [if_neg c1] at h
    by_cases c2 : target.len < base.len ∧ start + d = target.len
    · rw [if_pos c2] at h
      obtain ⟨ops', e4, ho'⟩ := good (by rw [show target.text.length - d = start from by omega]; exact hstT)
      simp only [e4, Option.bind_some] at h
      exact fin ho' h
    · rw [if_neg c2] at h
      by_cases c3 : target.len > base.len ∧ start + d = base.len
      · rw [if_pos c3] at h
        obtain ⟨ops', e4, ho'⟩ := good (by
          have hu : Utf8 (target.text.drop (target.text.length - d)) := by
            rw [← h2.2.2, show base.text.length - d = start from by omega]
            exact ((boundary_iff hB).1 hstB).2.2
          exact suffix_boundary hT boundary_length (by omega) (by rw [List.take_length]; exact hu))
        simp only [e4, Option.bind_some] at h
        exact fin ho' h
      · rw [if_neg c3] at h
        unfold slowDelta at h
        obtain ⟨hs, e5, hh⟩ := makeLineHashes_spec hb (min := minSize) (by decide)
        by_cases h5 : isCharBoundary target.text (target.len - d) = true
        · obtain ⟨ls, e6, hl⟩ := linesRaw_spec ht (range := .range start (target.len - d)) (by simp only [Bounds.lo, Bounds.hi]; omega) (ho.boundary hT)
            (by simp only [Bounds.hi]; exact (boundary_iff_spec hT).1 h5)
          simp only [Bounds.lo, Bounds.hi] at hl
          obtain ⟨st, e7, hm, hn⟩ := match_loop hT hh h5 ls (s := start) ⟨[], 0, 0, false⟩ (by simpa using hl) (by simp) (by simp)
          obtain ⟨rs, e8, hr⟩ := chosen_spec hm hn
          simp only [e5, e6, e7, e8, Option.bind_eq_bind, Option.bind_some, usizeSub_le (show d ≤ target.len by omega), usizeSub_le (show d ≤ base.len by omega)] at h
          rw [Option.bind_eq_some_iff] at h
          obtain ⟨⟨ops2, p2⟩, e9, h⟩ := h
          have hloop := expandLoop_any hb ht h5 rs (.inl ⟨ho, by simp only; omega⟩) hr e9
          simp only at hloop h
          by_cases hdp : d > 0
          · rw [if_pos hdp, Option.bind_eq_some_iff] at h
            obtain ⟨ops3, e10, h⟩ := h
            rcases hloop with ⟨ho2, hp2⟩ | hbad
            · rw [hlt] at h5
              obtain ⟨ops4, e11, ho3⟩ := copy_spec ho2 (t := target.text.length - d) (by omega) (tail_good hB hT h2 h5)
              rw [← hlb, ← hlt] at e11
              cases e11.symm.trans e10
              exact fin ho3 h
            · rw [toDelta_bad hb ht (copy_bad hbad e10)] at h
              cases h
          · rw [if_neg hdp] at h
            rcases hloop with ⟨ho2, hp2⟩ | hbad
            · exact fin ho2 h
            · rw [toDelta_bad hb ht hbad] at h
              cases h
        · have hne : start ≠ target.len - d := by
            intro e
            rw [← e] at h5
            exact h5 hstT
          rw [linesRaw_panics ht (s := start) (e := target.len - d) (by omega) (by omega) (by rw [← boundary_iff_spec hT]; exact h5)] at h
          simp [e5] at h

end Diff

end Xi
