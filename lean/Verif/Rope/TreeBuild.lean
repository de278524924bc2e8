import Verif.Rope.TreeLemmas

/-!
# Lemmas on trees: the builder, slicing and editing
-/

namespace Xi

variable {L I α : Type} [TreeLeaf L I] [LeafSpec L I α]

open Node

/-- A vector of the builder's stack: nodes of height `h`, at least one, and all
of them large enough if there are several (tree.rs:503-508). -/
def VecOk (h : Nat) (v : List (Node L I)) : Prop :=
  1 ≤ v.length ∧ (∀ c ∈ v, c.WF h) ∧ (1 < v.length → ∀ c ∈ v, c.isOkChild = true)

/-- The builder's stack: vectors of less than eight nodes, in order of strictly
descending height (seen from the bottom), the least height being at least `lb`. -/
def StackOk : Nat → List (List (Node L I)) → Prop
  | _, [] => True
  | lb, tos :: rest => ∃ h, lb ≤ h ∧ VecOk h tos ∧ tos.length < 8 ∧ StackOk (h + 1) rest

/-- The text pushed so far. -/
def stackText : List (List (Node L I)) → List α
  | [] => []
  | tos :: rest => stackText rest ++ textList tos

theorem StackOk.mono {lb lb' : Nat} {s : List (List (Node L I))} (h : StackOk lb s) (hl : lb' ≤ lb) : StackOk lb' s := by
  cases s with
  | nil => trivial
  | cons tos rest =>
    obtain ⟨k, h1, h2⟩ := h
    exact ⟨k, by omega, h2⟩

theorem vecOk_one {h} {n : Node L I} (hw : n.WF h) : VecOk h [n] :=
  ⟨by simp, by simpa using hw, by simp⟩

theorem popNodes_spec {h} {v : List (Node L I)} (hv : VecOk h v) (h8 : v.length ≤ 8) :
    ∃ n, TreeBuilder.popNodes v = some n ∧ n.text = textList v ∧ (n.WF h ∨ n.WF (h + 1)) ∧
      (1 < v.length → n.WF (h + 1)) := by
  obtain ⟨h1, h2, h3⟩ := hv
  match v, h1, h2, h3, h8 with
  | [n], _, h2, _, _ => exact ⟨n, rfl, by simp, Or.inl (h2 n (by simp)), by simp⟩
  | a :: b :: r, _, h2, h3, h8 =>
    have h3 := h3 (by simp)
    have hk : Kids h (a :: b :: r) := fun c hc => ⟨h2 c hc, h3 c hc⟩
    obtain ⟨len, info, e, hw⟩ := fromNodes_spec hk (by simp) h8
    exact ⟨_, e, text_internal, Or.inr hw, fun _ => hw⟩

theorem pushEqual_spec {h} {v : List (Node L I)} {n : Node L I} (hv : VecOk h v) (hn : n.WF h) :
    ∃ v', TreeBuilder.pushEqual v n = some v' ∧ textList v' = textList v ++ n.text ∧ VecOk h v' ∧
      v'.length ≤ v.length + 1 := by
  obtain ⟨h1, h2, h3⟩ := hv
  rcases List.eq_nil_or_concat v with rfl | ⟨rest, last, rfl⟩
  · simp at h1
  rw [List.concat_eq_append] at *
  have hl := h2 last (by simp)
  simp only [TreeBuilder.pushEqual, List.getLast?_concat, List.dropLast_concat, Option.bind_eq_bind, Option.bind_some]
  have hrest : ∀ c ∈ rest, c.isOkChild = true := by
    intro c hc
    refine h3 ?_ c (by simp [hc])
    have : 0 < rest.length := List.length_pos_of_mem hc
    simp; omega
  split
  · rename_i hb
    simp only [Bool.and_eq_true] at hb
    refine ⟨_, rfl, by simp, ⟨by simp, ?_, ?_⟩, by simp⟩
    · intro c hc
      simp only [List.mem_append, List.mem_singleton] at hc
      rcases hc with (hc | rfl) | rfl
      · exact h2 c (by simp [hc])
      · exact hl
      · exact hn
    · intro _ c hc
      simp only [List.mem_append, List.mem_singleton] at hc
      rcases hc with (hc | rfl) | rfl
      · exact hrest c hc
      · exact hb.1
      · exact hb.2
  · rename_i hb
    simp only [Bool.and_eq_true] at hb
    have hnot : n.isOkChild = true → rest = [] := by
      intro hno
      refine Classical.byContradiction fun hne => hb ⟨?_, hno⟩
      have : 0 < rest.length := List.length_pos_iff.2 hne
      exact h3 (by simp; omega) last (by simp)
    have hlast : rest ≠ [] → last.isOkChild = true := by
      intro hne
      have : 0 < rest.length := List.length_pos_iff.2 hne
      exact h3 (by simp; omega) last (by simp)
    split
    · rename_i h0
      rw [hn.height_eq] at h0
      simp at h0
      subst h0
      obtain ⟨l, rfl, o1⟩ := hl.leafNode
      obtain ⟨m, rfl, o2⟩ := hn.leafNode
      simp only [fromLeaf, getLeaf, Option.bind_some, Node.len]
      simp only [← fromLeaf.eq_1]
      rcases LeafSpec.push_whole o1 o2 hb with ⟨l', e, ok', c', b'⟩ | ⟨l', r, e, ok', okr, c', b', br⟩
      · refine ⟨rest ++ [fromLeaf l'], by simp [e], ?_, ⟨by simp, ?_, ?_⟩, by simp⟩
        · simp [text_fromLeaf, c']
        · intro c hc
          simp only [List.mem_append, List.mem_singleton] at hc
          rcases hc with hc | rfl
          · exact h2 c (by simp [hc])
          · exact wf_fromLeaf ok'
        · intro hlen c hc
          have hne : rest ≠ [] := by
            rintro rfl; simp at hlen
          simp only [List.mem_append, List.mem_singleton] at hc
          rcases hc with hc | rfl
          · exact hrest c hc
          · exact b' (Or.inl (hlast hne))
      · refine ⟨rest ++ [fromLeaf l', fromLeaf r], by simp [e], ?_, ⟨by simp, ?_, ?_⟩, by simp⟩
        · simp [text_fromLeaf, c']
        · intro c hc
          simp only [List.mem_append, List.mem_cons, List.not_mem_nil, or_false] at hc
          rcases hc with hc | rfl | rfl
          · exact h2 c (by simp [hc])
          · exact wf_fromLeaf ok'
          · exact wf_fromLeaf okr
        · intro hlen c hc
          simp only [List.mem_append, List.mem_cons, List.not_mem_nil, or_false] at hc
          rcases hc with hc | rfl | rfl
          · exact hrest c hc
          · exact b'
          · exact br
    · rename_i h0
      rw [hn.height_eq] at h0
      simp at h0
      obtain ⟨k, rfl⟩ : ∃ k, h = k + 1 := ⟨h - 1, by omega⟩
      obtain ⟨len, info, cs, rfl, l2, l8, hk⟩ := hl.kids
      obtain ⟨len', info', cs', rfl, m2, m8, hk'⟩ := hn.kids
      simp only [getChildren, Option.bind_some]
      have hkk := hk.append hk'
      split
      · rename_i hle
        simp only [maxChildren] at hle
        obtain ⟨len3, info3, e, hw⟩ := fromNodes_spec hkk (by simp; omega) (by simpa using hle)
        refine ⟨rest ++ [_], by simp [e]; rfl, ?_, ⟨by simp, ?_, ?_⟩, by simp⟩
        · simp [text_internal]
        · intro c hc
          simp only [List.mem_append, List.mem_singleton] at hc
          rcases hc with hc | rfl
          · exact h2 c (by simp [hc])
          · exact hw
        · intro hlen c hc
          simp only [List.mem_append, List.mem_singleton] at hc
          rcases hc with hc | rfl
          · exact hrest c hc
          · exact isOkChild_internal.2 (by simp; omega)
      · rename_i hgt
        simp only [maxChildren] at hgt
        have hm : min maxChildren (cs.length + cs'.length - minChildren) = min 8 (cs.length + cs'.length - 4) := rfl
        rw [hm]
        generalize hs : min 8 (cs.length + cs'.length - 4) = sp
        have k1 : Kids k ((cs ++ cs').take sp) := hkk.sub (fun c hc => List.mem_of_mem_take hc)
        have k2 : Kids k ((cs ++ cs').drop sp) := hkk.sub (fun c hc => List.mem_of_mem_drop hc)
        have l1 : ((cs ++ cs').take sp).length = sp := by simp; omega
        have l2 : ((cs ++ cs').drop sp).length = cs.length + cs'.length - sp := by simp
        obtain ⟨len1, info1, e1, w1⟩ := fromNodes_spec k1 (by omega) (by omega)
        obtain ⟨len2, info2, e2, w2⟩ := fromNodes_spec k2 (by omega) (by omega)
        refine ⟨rest ++ [_, _], by rw [e1, e2]; rfl, ?_, ⟨by simp, ?_, ?_⟩, by simp⟩
        · simp only [textList_append, textList_cons, text_internal, textList_nil, List.append_nil]
          rw [← textList_append, List.take_append_drop, textList_append]
          simp
        · intro c hc
          simp only [List.mem_append, List.mem_cons, List.not_mem_nil, or_false] at hc
          rcases hc with hc | rfl | rfl
          · exact h2 c (by simp [hc])
          · exact w1
          · exact w2
        · intro hlen c hc
          simp only [List.mem_append, List.mem_cons, List.not_mem_nil, or_false] at hc
          rcases hc with hc | rfl | rfl
          · exact hrest c hc
          · exact isOkChild_internal.2 (by omega)
          · exact isOkChild_internal.2 (by omega)

theorem pushAux_spec (s : List (List (Node L I))) : ∀ {lb h : Nat} {n : Node L I}, StackOk lb s → n.WF h →
    ∃ s', TreeBuilder.pushAux s n = some s' ∧ stackText s' = stackText s ++ n.text ∧ StackOk 0 s' ∧ s' ≠ [] := by
  induction s with
  | nil =>
    intro lb h n _ hn
    exact ⟨[[n]], rfl, by simp [stackText], ⟨h, by omega, vecOk_one hn, by simp, trivial⟩, by simp⟩
  | cons tos rest ih =>
    intro lb h n hs hn
    obtain ⟨k, hk1, hv, hl8, hrest⟩ := hs
    have hv' := hv
    obtain ⟨hv1, hv2, hv3⟩ := hv'
    match tos, hv, hv1, hv2, hv3, hl8 with
    | first :: tl, hv, hv1, hv2, hv3, hl8 =>
      have hfh := (hv2 first (by simp)).height_eq
      simp only [TreeBuilder.pushAux, List.head?_cons, Option.bind_eq_bind, Option.bind_some, hfh, hn.height_eq]
      split
      · rename_i hlt
        obtain ⟨p, e, t, w, _⟩ := popNodes_spec hv (by omega)
        obtain ⟨j, wj⟩ : ∃ j, p.WF j := w.elim (fun w => ⟨_, w⟩) (fun w => ⟨_, w⟩)
        obtain ⟨m, e2, t2, w2⟩ := concat_spec wj hn
        obtain ⟨j2, wm⟩ : ∃ j, m.WF j := w2.elim (fun w => ⟨_, w⟩) (fun w => ⟨_, w⟩)
        obtain ⟨s', e3, t3, w3, ne⟩ := ih hrest wm
        refine ⟨s', by simp [e, e2, e3], ?_, w3, ne⟩
        rw [t3, t2, t, stackText]; simp
      · split
        · rename_i heq
          subst heq
          obtain ⟨v', e, t, w, l⟩ := pushEqual_spec hv hn
          simp only [e, Option.bind_some]
          by_cases hlt : v'.length < maxChildren
          · rw [if_pos hlt]
            exact ⟨_, rfl, by simp [stackText, t], ⟨k, by omega, w, hlt, hrest⟩, by simp⟩
          · rw [if_neg hlt]
            obtain ⟨p, e2, t2, w2, _⟩ := popNodes_spec w (by omega)
            obtain ⟨j, wj⟩ : ∃ j, p.WF j := w2.elim (fun w => ⟨_, w⟩) (fun w => ⟨_, w⟩)
            obtain ⟨s', e3, t3, w3, ne⟩ := ih hrest wj
            refine ⟨s', by simp [e2, e3], ?_, w3, ne⟩
            rw [t3, t2, t, stackText]; simp
        · refine ⟨_, rfl, by simp [stackText], ⟨h, by omega, vecOk_one hn, by simp, k, by omega, hv, hl8, hrest⟩, by simp⟩

/-- The state of a builder: what has been pushed, and its invariant. -/
def TreeBuilder.Holds (b : TreeBuilder L I) (t : List α) : Prop := StackOk 0 b.stack ∧ stackText b.stack = t

theorem TreeBuilder.holds_new : (TreeBuilder.new : TreeBuilder L I).Holds [] := ⟨trivial, rfl⟩

theorem TreeBuilder.push_spec {b : TreeBuilder L I} {t : List α} {h : Nat} {n : Node L I} (hb : b.Holds t) (hn : n.WF h) :
    ∃ b', b.push n = some b' ∧ b'.Holds (t ++ n.text) := by
  obtain ⟨h1, rfl⟩ := hb
  obtain ⟨s', e, t, w, -⟩ := pushAux_spec b.stack h1 hn
  exact ⟨⟨s'⟩, by simp [TreeBuilder.push, e], w, t⟩

theorem buildAux_spec (s : List (List (Node L I))) : ∀ {lb h : Nat} {n : Node L I}, StackOk lb s → n.WF h →
    ∃ m, TreeBuilder.buildAux s n = some m ∧ m.text = stackText s ++ n.text ∧ m.Balanced := by
  induction s with
  | nil => intro lb h n _ hn; exact ⟨n, rfl, by simp [stackText], h, hn⟩
  | cons tos rest ih =>
    intro lb h n hs hn
    obtain ⟨k, hk1, hv, hl8, hrest⟩ := hs
    obtain ⟨p, e, t, w, _⟩ := popNodes_spec hv (by omega)
    obtain ⟨j, wj⟩ : ∃ j, p.WF j := w.elim (fun w => ⟨_, w⟩) (fun w => ⟨_, w⟩)
    obtain ⟨m, e2, t2, w2⟩ := concat_spec wj hn
    obtain ⟨j2, wm⟩ : ∃ j, m.WF j := w2.elim (fun w => ⟨_, w⟩) (fun w => ⟨_, w⟩)
    obtain ⟨m', e3, t3, w3⟩ := ih hrest wm
    exact ⟨m', by simp [TreeBuilder.buildAux, e, e2, e3], by rw [t3, t2, t, stackText]; simp, w3⟩

theorem TreeBuilder.build_spec {b : TreeBuilder L I} {t : List α} (hb : b.Holds t) :
    ∃ n, b.build = some n ∧ n.text = t ∧ n.Balanced := by
  obtain ⟨h1, rfl⟩ := hb
  obtain ⟨s⟩ := b
  cases s with
  | nil =>
    refine ⟨_, rfl, ?_, 0, wf_fromLeaf LeafSpec.ok_default⟩
    rw [text_fromLeaf, LeafSpec.content_default]; rfl
  | cons tos rest =>
    obtain ⟨k, hk1, hv, hl8, hrest⟩ := h1
    obtain ⟨p, e, t, w, _⟩ := popNodes_spec hv (by omega)
    obtain ⟨j, wj⟩ : ∃ j, p.WF j := w.elim (fun w => ⟨_, w⟩) (fun w => ⟨_, w⟩)
    obtain ⟨m', e3, t3, w3⟩ := buildAux_spec rest hrest wj
    exact ⟨m', by simp [TreeBuilder.build, e, e3], by rw [t3, t, stackText], w3⟩

/-- The offset `i` is a place where the sequence `s` may be cut. -/
def Cut (L : Type) {I α : Type} [TreeLeaf L I] [LeafSpec L I α] (s : List α) (i : Nat) : Prop :=
  i ≤ s.length ∧ LeafSpec.valid L (s.take i) ∧ LeafSpec.valid L (s.drop i)

theorem cut_left {a b : List α} {i : Nat} (hb : LeafSpec.valid L b) (h : Cut L (a ++ b) i) (hi : i ≤ a.length) : Cut L a i := by
  obtain ⟨-, h2, h3⟩ := h
  rw [List.take_append_of_le_length hi] at h2
  rw [List.drop_append_of_le_length hi] at h3
  exact ⟨hi, h2, LeafSpec.valid_left hb h3⟩

theorem cut_right {a b : List α} {i : Nat} (ha : LeafSpec.valid L a) (h : Cut L (a ++ b) i) (hi : a.length ≤ i) :
    Cut L b (i - a.length) := by
  obtain ⟨h1, h2, h3⟩ := h
  rw [List.take_append, List.take_of_length_le hi] at h2
  rw [List.drop_append, List.drop_of_length_le hi, List.nil_append] at h3
  rw [List.length_append] at h1
  exact ⟨by omega, LeafSpec.valid_right ha h2, h3⟩

theorem cut_zero {a : List α} (ha : LeafSpec.valid L a) : Cut L a 0 := by
  refine ⟨by omega, ?_, by simpa using ha⟩
  rw [List.take_zero]; exact LeafSpec.valid_nil

theorem cut_length {a : List α} (ha : LeafSpec.valid L a) : Cut L a a.length := by
  refine ⟨by omega, by simpa using ha, ?_⟩
  rw [List.drop_length]; exact LeafSpec.valid_nil

theorem text_slice_append (a b : List α) (s e : Nat) :
    ((a ++ b).take e).drop s = (a.take e).drop s ++ (b.take (e - a.length)).drop (s - a.length) := by
  rw [List.take_append, List.drop_append, List.length_take]
  by_cases h : a.length ≤ e
  · rw [Nat.min_eq_right h]
  · have : e - a.length = 0 := by omega
    simp [this]

theorem textList_valid {h} {cs : List (Node L I)} (hc : ∀ c ∈ cs, c.WF h) : LeafSpec.valid L (textList cs) := by
  induction cs with
  | nil => exact LeafSpec.valid_nil
  | cons c cs ih =>
    rw [textList_cons]
    exact LeafSpec.valid_append (hc c (by simp)).valid (ih (fun c hx => hc c (by simp [hx])))

/-- What `push_subseq` does, for the nodes of one height. -/
def SubseqOk (L : Type) {I α : Type} [TreeLeaf L I] [LeafSpec L I α] (h : Nat) : Prop :=
  ∀ (n : Node L I) (b : TreeBuilder L I) (t : List α) (iv : Interval), n.WF h → b.Holds t →
    (iv.start < iv.stop → iv.stop ≤ n.text.length ∧ Cut L n.text iv.start ∧ Cut L n.text iv.stop) →
    ∃ b', n.pushSubseq b iv = some b' ∧ b'.Holds (t ++ (n.text.take iv.stop).drop iv.start)

theorem slice_empty {a : List α} {s e : Nat} (h : e ≤ s) : (a.take e).drop s = [] := by
  apply List.drop_of_length_le
  rw [List.length_take]; omega

theorem pushSubseqList_spec {h : Nat} (ih : SubseqOk L h) (cs : List (Node L I)) :
    ∀ (b : TreeBuilder L I) (t : List α) (iv : Interval) (o : Nat), (∀ c ∈ cs, c.WF h) → b.Holds t →
    iv.start < iv.stop → iv.stop ≤ o + (textList cs).length →
    (o ≤ iv.start → Cut L (textList cs) (iv.start - o)) → (o ≤ iv.stop → Cut L (textList cs) (iv.stop - o)) →
    ∃ b', pushSubseqList cs b iv o = some b' ∧
      b'.Holds (t ++ ((textList cs).take (iv.stop - o)).drop (iv.start - o)) := by
  induction cs with
  | nil =>
    intro b t iv o _ hb _ _ _ _
    exact ⟨b, by simp [pushSubseqList], by simpa using hb⟩
  | cons c cs ihc =>
    intro b t iv o hw hb hne hle hc1 hc2
    simp only [pushSubseqList]
    have hwc := hw c (by simp)
    have hws : ∀ c ∈ cs, c.WF h := fun c hx => hw c (by simp [hx])
    have hvs := textList_valid hws
    split
    · rename_i hbefore
      simp only [Interval.isBefore, decide_eq_true_eq] at hbefore
      refine ⟨b, rfl, ?_⟩
      rw [slice_empty (by omega)]; simpa using hb
    · rename_i hbefore
      simp only [Interval.isBefore, decide_eq_true_eq] at hbefore
      rw [textList_cons, List.length_append] at hle
      rw [textList_cons] at hc1 hc2 ⊢
      have hc2 := hc2 (by omega)
      have hlen := hwc.len_eq
      have hrec : (iv.intersect (c.interval.translate o)).translateNeg o =
          some ⟨iv.start - o, max (iv.start - o) (min (iv.stop - o) c.text.length)⟩ := by
        simp only [Interval.intersect, Node.interval, Interval.translate, Interval.translateNeg, hlen]
        rw [if_pos (by omega)]
        simp only [Option.some.injEq, Interval.mk.injEq]
        omega
      simp only [hrec, Option.bind_eq_bind, Option.bind_some]
      obtain ⟨b', e, hb'⟩ := ih c b t ⟨iv.start - o, max (iv.start - o) (min (iv.stop - o) c.text.length)⟩ hwc hb (by
        intro hlt
        simp only at hlt ⊢
        have hmax : max (iv.start - o) (min (iv.stop - o) c.text.length) = min (iv.stop - o) c.text.length := by omega
        rw [hmax]
        refine ⟨by omega, ?_, ?_⟩
        · by_cases ho : o ≤ iv.start
          · exact cut_left hvs (hc1 ho) (by omega)
          · rw [show iv.start - o = 0 by omega]; exact cut_zero hwc.valid
        · by_cases hk : iv.stop - o ≤ c.text.length
          · rw [Nat.min_eq_left hk]; exact cut_left hvs hc2 hk
          · rw [Nat.min_eq_right (by omega)]; exact cut_length hwc.valid)
      simp only [e, Option.bind_some]
      obtain ⟨b'', e', hb''⟩ := ihc b' _ iv (o + c.len) hws hb' hne (by omega)
        (by
          intro ho
          have := cut_right hwc.valid (hc1 (by omega)) (by omega)
          rwa [hlen, show iv.start - (o + c.text.length) = iv.start - o - c.text.length by omega])
        (by
          intro ho
          have := cut_right hwc.valid hc2 (by omega)
          rwa [hlen, show iv.stop - (o + c.text.length) = iv.stop - o - c.text.length by omega])
      refine ⟨b'', e', ?_⟩
      rw [text_slice_append, ← List.append_assoc]
      rw [hlen, ← Nat.sub_sub, ← Nat.sub_sub] at hb''
      have : (c.text.take (max (iv.start - o) (min (iv.stop - o) c.text.length))).drop (iv.start - o) =
          (c.text.take (iv.stop - o)).drop (iv.start - o) := by
        by_cases h1 : iv.start - o ≤ min (iv.stop - o) c.text.length
        · rw [Nat.max_eq_right h1]
          by_cases h2 : iv.stop - o ≤ c.text.length
          · rw [Nat.min_eq_left h2]
          · rw [Nat.min_eq_right (by omega), List.take_of_length_le (Nat.le_refl _), List.take_of_length_le (by omega)]
        · rw [Nat.max_eq_left (by omega), slice_empty (Nat.le_refl _)]
          symm
          apply List.drop_of_length_le
          rw [List.length_take]; omega
      rw [this] at hb''
      exact hb''

theorem pushLeafSlice_spec {b : TreeBuilder L I} {t : List α} {l : L} {iv : Interval} (hb : b.Holds t)
    (ho : LeafSpec.ok l) (hne : iv.start ≤ iv.stop) (hle : iv.stop ≤ (LeafSpec.content l).length)
    (h1 : Cut L (LeafSpec.content l) iv.start) (h2 : Cut L (LeafSpec.content l) iv.stop) :
    ∃ b', b.pushLeafSlice l iv = some b' ∧ b'.Holds (t ++ ((LeafSpec.content l).take iv.stop).drop iv.start) := by
  obtain ⟨l', e, ok', c'⟩ := LeafSpec.push_slice ho hne hle h1.2.1 h2.2.1
  obtain ⟨b', e', hb'⟩ := TreeBuilder.push_spec hb (wf_fromLeaf ok')
  refine ⟨b', ?_, ?_⟩
  · simp only [TreeBuilder.pushLeafSlice, TreeLeaf.subseq]
    rw [show (⟨iv.start, iv.stop⟩ : Interval) = iv from rfl] at e
    simp [e, e']
  · rw [text_fromLeaf, c'] at hb'; exact hb'

theorem pushSubseq_spec (h : Nat) : SubseqOk L (I := I) (α := α) h := by
  induction h with
  | zero =>
    intro n b t iv hw hb hcut
    obtain ⟨l, rfl, ho⟩ := hw.leafNode
    rw [text_fromLeaf] at hcut
    rw [show (fromLeaf l : Node L I) = .leaf (TreeLeaf.len l) (TreeLeaf.computeInfo l) l from rfl, pushSubseq]
    rw [← fromLeaf.eq_1, text_fromLeaf]
    split
    · rename_i he
      simp only [Interval.isEmpty, decide_eq_true_eq] at he
      exact ⟨b, rfl, by rw [slice_empty he]; simpa using hb⟩
    · rename_i he
      simp only [Interval.isEmpty, decide_eq_true_eq] at he
      obtain ⟨h1, h2, h3⟩ := hcut (by omega)
      split
      · rename_i heq
        obtain ⟨b', e, hb'⟩ := TreeBuilder.push_spec hb hw
        refine ⟨b', e, ?_⟩
        rw [heq, LeafSpec.len_eq ho]
        simpa [text_fromLeaf] using hb'
      · exact pushLeafSlice_spec hb ho (by omega) h1 h2 h3
  | succ h ih =>
    intro n b t iv hw hb hcut
    have hlen := hw.len_eq
    obtain ⟨len, info, cs, rfl, l2, l8, hk⟩ := hw.kids
    rw [pushSubseq, text_internal]
    rw [text_internal] at hcut hlen
    split
    · rename_i he
      simp only [Interval.isEmpty, decide_eq_true_eq] at he
      exact ⟨b, rfl, by rw [slice_empty he]; simpa using hb⟩
    · rename_i he
      simp only [Interval.isEmpty, decide_eq_true_eq] at he
      obtain ⟨h1, h2, h3⟩ := hcut (by omega)
      split
      · rename_i heq
        obtain ⟨b', e, hb'⟩ := TreeBuilder.push_spec hb hw
        refine ⟨b', e, ?_⟩
        simp only [Node.len] at hlen
        rw [heq, hlen]
        simpa [text_internal] using hb'
      · have := pushSubseqList_spec ih cs b t iv 0 (fun c hc => (hk c hc).1) hb (by omega) (by omega)
          (fun _ => by simpa using h2) (fun _ => by simpa using h3)
        simpa using this

/-- The interval is a range of `s` with both ends at places where `s` may be cut
(or it is empty). -/
def CutRange (L : Type) {I α : Type} [TreeLeaf L I] [LeafSpec L I α] (s : List α) (iv : Interval) : Prop :=
  iv.start < iv.stop → Cut L s iv.start ∧ Cut L s iv.stop

namespace Node

theorem pushSubseq_ok {n : Node L I} {b : TreeBuilder L I} {t : List α} {iv : Interval} (hn : n.Balanced) (hb : b.Holds t)
    (hiv : CutRange L n.text iv) :
    ∃ b', n.pushSubseq b iv = some b' ∧ b'.Holds (t ++ (n.text.take iv.stop).drop iv.start) := by
  obtain ⟨h, hw⟩ := hn
  refine pushSubseq_spec h n b t iv hw hb (fun hlt => ?_)
  obtain ⟨h1, h2⟩ := hiv hlt
  exact ⟨h2.1, h1, h2⟩

theorem subseq_spec {n : Node L I} {iv : Interval} (hn : n.Balanced) (hiv : CutRange L n.text iv) :
    ∃ m, n.subseq iv = some m ∧ m.text = (n.text.take iv.stop).drop iv.start ∧ m.Balanced := by
  obtain ⟨b, e, hb⟩ := pushSubseq_ok hn TreeBuilder.holds_new hiv
  obtain ⟨m, e', t, hm⟩ := TreeBuilder.build_spec hb
  exact ⟨m, by simp [subseq, e, e'], by simpa using t, hm⟩

theorem edit_spec {n new : Node L I} {iv : Interval} (hn : n.Balanced) (hnew : new.Balanced)
    (h1 : Cut L n.text iv.start) (h2 : Cut L n.text iv.stop) :
    ∃ m, n.edit iv new = some m ∧ m.text = n.text.take iv.start ++ new.text ++ n.text.drop iv.stop ∧ m.Balanced := by
  obtain ⟨h, hw⟩ := hn
  have hlen := hw.len_eq
  have hn : n.Balanced := ⟨h, hw⟩
  have hv := hw.valid
  have e1 : n.interval.pre iv = ⟨0, iv.start⟩ := by
    have := h1.1
    simp only [interval, Interval.pre, Interval.mk.injEq]; omega
  have e2 : n.interval.suf iv = ⟨iv.stop, n.text.length⟩ := by
    have := h2.1
    simp only [interval, Interval.suf, Interval.mk.injEq]; omega
  obtain ⟨b1, f1, hb1⟩ := pushSubseq_ok hn TreeBuilder.holds_new (iv := ⟨0, iv.start⟩) (fun _ => ⟨cut_zero hv, h1⟩)
  obtain ⟨k, hk⟩ := hnew
  obtain ⟨b2, f2, hb2⟩ := TreeBuilder.push_spec hb1 hk
  obtain ⟨b3, f3, hb3⟩ := pushSubseq_ok hn hb2 (iv := ⟨iv.stop, n.text.length⟩) (fun _ => ⟨h2, cut_length hv⟩)
  obtain ⟨m, e', t, hm⟩ := TreeBuilder.build_spec hb3
  refine ⟨m, by simp [edit, e1, e2, f1, f2, f3, e'], ?_, hm⟩
  rw [t]; simp

end Node

end Xi
