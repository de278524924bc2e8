import Verif.Rope.Lines
import Verif.Rope.CursorLemmas
import Verif.Rope.RopeMetrics
import Verif.Spec.Lines

/-!
# Lemmas on the chunk and line iterators
-/

namespace Xi

theorem leaves_utf8 {ls : List (List UInt8)} (h : ∀ l ∈ ls, LeafSpec.ok (L := List UInt8) l) :
    Utf8 (ls.flatMap (LeafSpec.content (L := List UInt8))) := by
  induction ls with
  | nil => exact utf8_nil
  | cons l ls ih =>
    rw [List.flatMap_cons]
    exact utf8_append (h l (by simp)).1 (ih (fun x hx => h x (by simp [hx])))

/-- A boundary of the text in the leaf of a cursor. -/
theorem Cursor.At.boundary {c : Cursor (List UInt8) RopeInfo} {pre post : List (List UInt8)} {l : List UInt8} (h : c.At pre l post)
    {p : Nat} (hb : isCharBoundary c.root.text p = true) (h1 : lenOf pre ≤ p) (h2 : p ≤ lenOf pre + l.length) :
    isCharBoundary l (p - lenOf pre) = true := by
  obtain ⟨n, hw⟩ := h.balanced
  have hok : ∀ x ∈ pre ++ l :: post, LeafSpec.ok (L := List UInt8) x := by
    rw [← h.leaves]; exact leaf_ok hw
  rw [h.text] at hb
  have u1 : Utf8 (pre.flatMap (LeafSpec.content (L := List UInt8))) := leaves_utf8 (fun x hx => hok x (by simp [hx]))
  have u2 : Utf8 (post.flatMap (LeafSpec.content (L := List UInt8))) := leaves_utf8 (fun x hx => hok x (by simp [hx]))
  refine boundary_mid u1 u2 (hok l (by simp)).1 (by omega) (k := p - lenOf pre) ?_
  rw [show ((pre.flatMap (LeafSpec.content (L := List UInt8))).length) = lenOf pre from rfl, show lenOf pre + (p - lenOf pre) = p by omega]
  exact hb

theorem piece_split {α : Type} (P l Q : List α) (p e : Nat) (h1 : P.length ≤ p) (h2 : p < P.length + l.length) (h3 : p < e) :
    ((P ++ (l ++ Q)).take e).drop p =
      (l.take (p - P.length + min (e - p) (l.length - (p - P.length)))).drop (p - P.length) ++
        ((P ++ (l ++ Q)).take e).drop (P.length + l.length) := by
  apply List.ext_getElem?
  intro i
  simp only [List.getElem?_drop, List.getElem?_take, List.getElem?_append, List.length_drop, List.length_take]
  grind

namespace ChunkIter

/-- What a chunk iterator has still to deliver. -/
def rest (it : ChunkIter) : List UInt8 := (it.cursor.root.text.take it.stop).drop it.cursor.position

/-- A chunk iterator in use. -/
structure Ok (it : ChunkIter) : Prop where
  stop : it.stop ≤ it.cursor.root.text.length
  bound : isCharBoundary it.cursor.root.text it.stop = true
  cursor : it.cursor.position < it.stop →
    isCharBoundary it.cursor.root.text it.cursor.position = true ∧ ∃ pre l post, it.cursor.Valid pre l post

theorem next_end {it : ChunkIter} (h : it.rest = []) (ho : it.Ok) : it.next = some (it, none) := by
  have h1 := ho.stop
  have : it.stop ≤ it.cursor.position := by
    have := congrArg List.length h
    simp [rest] at this; omega
  simp [next, this]

theorem next_some {it : ChunkIter} (h : it.rest ≠ []) (ho : it.Ok) :
    ∃ it' chunk, it.next = some (it', some chunk) ∧ it'.Ok ∧ it'.stop = it.stop ∧ chunk ≠ [] ∧ Utf8 chunk ∧
      it.rest = chunk ++ it'.rest := by
  obtain ⟨c, e⟩ := it
  have hstop := ho.stop
  have hbound := ho.bound
  simp only at hstop hbound
  have hlt : c.position < e := by
    rcases Nat.lt_or_ge c.position e with h' | h'
    · exact h'
    · exfalso; apply h
      simp only [rest]
      exact List.drop_eq_nil_of_le (by rw [List.length_take]; omega)
  obtain ⟨hpb, pre, l, post, hv⟩ := ho.cursor hlt
  simp only at hpb hv
  have hat : c.At pre l post := hv.toAt
  have hok := hat.ok
  have hcl : LeafSpec.content (L := List UInt8) l = l := rfl
  have htext := hat.text
  have hrl : c.root.text.length = lenOf pre + (l.length + lenOf post) := by
    rw [htext]; simp [lenOf, hcl]
  have hlo := hv.lo
  have hhi : c.position < lenOf pre + l.length := by
    rcases hv.hi with h1 | ⟨h1, h2⟩
    · exact h1
    · subst h1
      rw [hcl] at h2
      simp at hrl; omega
  -- the chunk
  have hs1 : isCharBoundary l (c.position - lenOf pre) = true := hat.boundary hpb hlo (by omega)
  have hs2 : isCharBoundary l (c.position - lenOf pre + min (e - c.position) (l.length - (c.position - lenOf pre))) = true := by
    rcases Nat.le_total (e - c.position) (l.length - (c.position - lenOf pre)) with hm | hm
    · rw [Nat.min_eq_left hm, show c.position - lenOf pre + (e - c.position) = e - lenOf pre by omega]
      exact hat.boundary hbound (by omega) (by omega)
    · rw [Nat.min_eq_right hm, show c.position - lenOf pre + (l.length - (c.position - lenOf pre)) = l.length by omega]
      exact boundary_length
  have hsl := strSlice_spec (s := l) (a := c.position - lenOf pre)
    (b := c.position - lenOf pre + min (e - c.position) (l.length - (c.position - lenOf pre))) (by omega) hs1 hs2
  have hstep : ∃ c', (∃ r, c.nextLeaf = some (c', r)) ∧ c'.root = c.root ∧ c'.position = lenOf pre + l.length ∧
      (c'.position < e → isCharBoundary c'.root.text c'.position = true ∧ ∃ pre l post, c'.Valid pre l post) := by
    cases post with
    | nil =>
      obtain ⟨c', g1, -, -, g2, g3⟩ := Cursor.nextLeaf_none hat
      have hlen : c.root.len = lenOf pre + l.length := by rw [hat.rootLen]; simp [hcl]
      refine ⟨c', ⟨_, g1⟩, g2, by rw [g3, hlen], ?_⟩
      intro h'
      rw [g3, hlen] at h'
      simp at hrl; omega
    | cons m post =>
      obtain ⟨c', g1, g2, g3, g4⟩ := Cursor.nextLeaf_some hat
      have hp : lenOf (pre ++ [l]) = lenOf pre + l.length := by simp [lenOf_append, lenOf_cons, hcl]
      refine ⟨c', ⟨_, g1⟩, g3, by rw [g4, hp], ?_⟩
      intro _
      have hm := hat.pos (.inr (by simp)) m (by simp)
      refine ⟨?_, pre ++ [l], m, post, g2, by omega, .inl (by omega)⟩
      rw [g3, g4]
      rw [Cursor.At.text hat]
      obtain ⟨n, hw⟩ := hat.balanced
      have hoks : ∀ x ∈ pre ++ l :: m :: post, LeafSpec.ok (L := List UInt8) x := by
        rw [← hat.leaves]; exact leaf_ok hw
      have hu : Utf8 ((m :: post).flatMap (LeafSpec.content (L := List UInt8))) := leaves_utf8 (fun x hx => hoks x (by
        simp at hx ⊢; exact .inr (.inr hx)))
      have := boundary_append (a := (pre ++ [l]).flatMap (LeafSpec.content (L := List UInt8))) hu
      simpa [lenOf] using this
  obtain ⟨c', ⟨r, g1⟩, g2, g3, g4⟩ := hstep
  refine ⟨⟨c', e⟩, ((l.take (c.position - lenOf pre + min (e - c.position) (l.length - (c.position - lenOf pre)))).drop
    (c.position - lenOf pre)), ?_, ⟨by rw [g2]; exact hstop, by rw [g2]; exact hbound, g4⟩, rfl, ?_, ?_, ?_⟩
  · have hgl : c.getLeaf = some (some (l, c.position - lenOf pre)) := by
      simp [Cursor.getLeaf, hat.leaf, hat.off, hlo]
    have hlt' : ¬ l.length < c.position - lenOf pre := by omega
    simp only [next]
    rw [if_neg (by omega)]
    simp only [hgl, Option.bind_eq_bind, Option.bind_some, if_neg hlt', g1, hsl]
    rfl
  · intro h0
    have := congrArg List.length h0
    simp at this; omega
  · have a1 := (utf8_split hok.1 hs2).2.1
    have h3 := (boundary_iff hok.1).1 hs1
    have h4 : isCharBoundary (l.take (c.position - lenOf pre + min (e - c.position) (l.length - (c.position - lenOf pre)))) (c.position - lenOf pre) = true := by
      have hsplit := List.take_append_drop (c.position - lenOf pre + min (e - c.position) (l.length - (c.position - lenOf pre))) l
      have hu2 := (utf8_split hok.1 hs2).2.2
      refine boundary_mid utf8_nil hu2 a1 (k := c.position - lenOf pre) (by rw [List.length_take]; omega) ?_
      simpa [hsplit] using hs1
    exact (utf8_split a1 h4).2.2
  · simp only [rest]
    rw [g2, g3, htext, hcl]
    exact piece_split (pre.flatMap (LeafSpec.content (L := List UInt8))) l _ c.position e hlo hhi hlt

theorem collect_spec (fuel : Nat) : ∀ {it : ChunkIter}, it.Ok → it.rest.length < fuel →
    ∃ cs, it.collect fuel = some cs ∧ cs.flatten = it.rest ∧ ∀ c ∈ cs, c ≠ [] ∧ Utf8 c := by
  induction fuel with
  | zero => intro it _ h; omega
  | succ fuel ih =>
    intro it ho hf
    by_cases h : it.rest = []
    · exact ⟨[], by simp [collect, next_end h ho], by simp [h], by simp⟩
    · obtain ⟨it', chunk, h1, h2, h3, h4, h5, h6⟩ := next_some h ho
      have hl := List.length_pos_iff.2 h4
      rw [h6, List.length_append] at hf
      obtain ⟨cs, g1, g2, g3⟩ := ih h2 (by omega)
      refine ⟨chunk :: cs, by simp [collect, h1, g1], by simp [g2, h6], ?_⟩
      intro c hc
      rcases List.mem_cons.1 hc with rfl | hc
      · exact ⟨h4, h5⟩
      · exact g3 c hc

theorem rest_length_le {it : ChunkIter} : it.rest.length ≤ it.stop := by
  simp [rest]; omega

end ChunkIter

namespace LinesRaw

/-- What is still to come. -/
def rest (it : LinesRaw) : List UInt8 := it.fragment ++ it.inner.rest

/-- A line iterator in use. -/
structure Ok (it : LinesRaw) : Prop where
  inner : it.inner.Ok
  fragment : Utf8 it.fragment

theorem fetch_spec {it : LinesRaw} (ho : it.Ok) :
    (it.rest = [] ∧ it.fetch = some (it, .ended)) ∨
    (∃ it', it.fetch = some (it', .ready) ∧ it'.Ok ∧ it'.fragment ≠ [] ∧ it'.rest = it.rest ∧
      (it.fragment ≠ [] ∨ it'.inner.rest.length < it.inner.rest.length) ∧ it'.inner.rest.length ≤ it.inner.rest.length ∧
      it'.inner.stop = it.inner.stop) := by
  unfold fetch
  by_cases hf : it.fragment = []
  · by_cases hr : it.inner.rest = []
    · left
      refine ⟨by simp [rest, hf, hr], ?_⟩
      simp [hf, ChunkIter.next_end hr ho.inner]
      cases it; simp_all
    · right
      obtain ⟨it', chunk, h1, h2, h3, h4, h5, h6⟩ := ChunkIter.next_some hr ho.inner
      refine ⟨⟨it', chunk⟩, ?_, ⟨h2, h5⟩, h4, ?_, .inr ?_, ?_, h3⟩
      · simp [hf, h1, h4]
      · simp [rest, hf, h6]
      · have := List.length_pos_iff.2 h4
        rw [h6, List.length_append]; show it'.rest.length < _; omega
      · rw [h6, List.length_append]; simp
  · right
    exact ⟨it, by simp [hf], ho, hf, rfl, .inl hf, Nat.le_refl _, rfl⟩

theorem nextLoop_spec (fuel : Nat) : ∀ {it : LinesRaw} {r : List UInt8}, it.Ok → newline ∉ r →
    it.inner.rest.length + (if it.fragment = [] then 1 else 2) ≤ fuel →
    ∃ it', it'.Ok ∧ it'.inner.stop = it.inner.stop ∧
      ((it.rest = [] ∧ r = [] ∧ it.nextLoop fuel r = some (it', none) ∧ it'.rest = []) ∨
      (∃ line, it.nextLoop fuel r = some (it', some (r ++ line)) ∧ r ++ line ≠ [] ∧ it.rest = line ++ it'.rest ∧
        newline ∉ (r ++ line).dropLast ∧ (it'.rest ≠ [] → (r ++ line).getLast? = some newline))) := by
  induction fuel with
  | zero => intro it r _ _ h; split at h <;> omega
  | succ fuel ih =>
    intro it r ho hr hf
    rcases fetch_spec ho with ⟨h1, h2⟩ | ⟨it', h1, h2, h3, h4, h5, h6, h7⟩
    · refine ⟨it, ho, rfl, ?_⟩
      simp only [nextLoop, h2, Option.bind_eq_bind, Option.bind_some]
      by_cases e : r = []
      · left; simp [e, h1]
      · right
        refine ⟨[], by simp [e], by simpa using e, by simp [h1], ?_, by simp [h1]⟩
        intro hm
        exact hr (List.dropLast_subset _ (by simpa using hm))
    · simp only [nextLoop, h1, Option.bind_eq_bind, Option.bind_some]
      rcases hm : memchr newline it'.fragment with _ | i
      · simp only
        obtain ⟨it2, g1, g2, g3⟩ := ih (it := ⟨it'.inner, []⟩) (r := r ++ it'.fragment) ⟨h2.inner, utf8_nil⟩ (by
          simp [hr, memchr_none hm]) (by
          simp only [if_pos]
          split at hf
          · next e => simp [e] at h5; omega
          · omega)
        refine ⟨it2, g1, by rw [g2, ← h7], .inr ?_⟩
        have hrest : it.rest = it'.fragment ++ LinesRaw.rest ⟨it'.inner, []⟩ := by rw [← h4]; simp [rest]
        rcases g3 with ⟨k1, k2, -, -⟩ | ⟨line, k1, k2, k3, k4, k5⟩
        · simp [h3] at k2
        · refine ⟨it'.fragment ++ line, by rw [k1, List.append_assoc], by rw [← List.append_assoc]; exact k2, by rw [hrest, k3, List.append_assoc], ?_, ?_⟩
          · rw [← List.append_assoc]; exact k4
          · rw [← List.append_assoc]; exact k5
      · simp only
        obtain ⟨k1, k2⟩ := memchr_some hm
        have hi : i < it'.fragment.length := by
          rcases Nat.lt_or_ge i it'.fragment.length with h | h
          · exact h
          · rw [List.getElem?_eq_none h] at k1; cases k1
        have hb : isCharBoundary it'.fragment (i + 1) = true := boundary_after_newline h2.fragment (by omega) (by simpa using k1)
        rw [strSlice_spec (by omega) boundary_zero hb, strSlice_spec (by omega) hb boundary_length]
        have hline : it'.fragment.take (i + 1) = it'.fragment.take i ++ [newline] := by
          rw [List.take_add_one, k1]; rfl
        refine ⟨⟨it'.inner, it'.fragment.drop (i + 1)⟩, ⟨h2.inner, (utf8_split h2.fragment hb).2.2⟩, h7, .inr
          ⟨it'.fragment.take (i + 1), ?_, ?_, ?_, ?_, ?_⟩⟩
        · simp
        · rw [hline]; simp
        · rw [← h4]
          simp only [rest]
          rw [← List.append_assoc, List.take_append_drop]
        · rw [hline, ← List.append_assoc, List.dropLast_concat]
          simp [hr, k2]
        · intro _
          rw [hline]; simp

theorem next_spec {it : LinesRaw} (ho : it.Ok) :
    ∃ it', it'.Ok ∧ it'.inner.stop = it.inner.stop ∧
      ((it.rest = [] ∧ it.next = some (it', none)) ∨
      (∃ line, it.next = some (it', some line) ∧ line ≠ [] ∧ it.rest = line ++ it'.rest ∧
        newline ∉ line.dropLast ∧ (it'.rest ≠ [] → line.getLast? = some newline))) := by
  have hl := it.inner.rest_length_le
  obtain ⟨it', h1, h2, h3⟩ := nextLoop_spec (it.inner.stop + 2) (it := it) (r := []) ho (by simp) (by split <;> omega)
  refine ⟨it', h1, h2, ?_⟩
  rcases h3 with ⟨k1, -, k2, -⟩ | ⟨line, k1, k2, k3, k4, k5⟩
  · exact .inl ⟨k1, k2⟩
  · exact .inr ⟨line, k1, k2, k3, k4, k5⟩

theorem collect_spec (fuel : Nat) : ∀ {it : LinesRaw}, it.Ok → it.rest.length < fuel →
    ∃ ls, it.collect fuel = some ls ∧ IsRawLines ls it.rest := by
  induction fuel with
  | zero => intro it _ h; omega
  | succ fuel ih =>
    intro it ho hf
    obtain ⟨it', h1, h2, h3⟩ := next_spec ho
    rcases h3 with ⟨k1, k2⟩ | ⟨line, k1, k2, k3, k4, k5⟩
    · exact ⟨[], by simp [collect, k2], by simp [k1], by simp, by simp, by simp⟩
    · have := List.length_pos_iff.2 k2
      rw [k3, List.length_append] at hf
      obtain ⟨ls, g1, g2⟩ := ih h1 (by omega)
      refine ⟨line :: ls, by simp [collect, k1, g1], by simp [g2.text, k3], ?_, ?_, ?_⟩
      · intro l hl
        rcases List.mem_cons.1 hl with rfl | hl
        · exact k2
        · exact g2.nonempty l hl
      · intro l hl
        rcases List.mem_cons.1 hl with rfl | hl
        · exact k4
        · exact g2.inner l hl
      · intro l hl
        cases ls with
        | nil => simp at hl
        | cons m ls =>
          simp only [List.dropLast_cons_cons] at hl
          rcases List.mem_cons.1 hl with rfl | hl
          · apply k5
            rw [← g2.text]
            have := g2.nonempty m (by simp)
            simp [this]
          · exact g2.ended l hl

end LinesRaw

theorem stripEnding_spec (s : List UInt8) : IsLineOf (stripEnding s) s := by
  unfold stripEnding
  by_cases h : s.getLast? = some newline
  · rw [if_pos h]
    obtain ⟨t, rfl⟩ := List.getLast?_eq_some_iff.1 h
    simp only [List.length_append, List.length_cons, List.length_nil, Nat.zero_add, Nat.add_sub_cancel, List.take_left]
    by_cases h2 : t.getLast? = some 13
    · rw [if_pos h2]
      obtain ⟨u, rfl⟩ := List.getLast?_eq_some_iff.1 h2
      left
      simp
    · rw [if_neg h2]
      exact .inr (.inl ⟨rfl, h2⟩)
  · rw [if_neg h]
    exact .inr (.inr ⟨rfl, h⟩)

namespace Rope

theorem iterChunks_spec {r : Rope} (hr : r.Balanced) {lo hi : Nat} {range : Bounds} (hb : range.intoInterval r.len = some ⟨lo, hi⟩)
    (hlo : CharBoundary r.text lo) (hhi : CharBoundary r.text hi) :
    ∃ it, r.iterChunks range = some it ∧ it.Ok ∧ it.rest = (r.text.take hi).drop lo ∧ it.stop = hi := by
  have hu := Rope.text_utf8 hr
  rw [← boundary_iff_spec hu] at hlo hhi
  have l1 := (utf8_split hu hlo).1
  have l2 := (utf8_split hu hhi).1
  obtain ⟨c, pre, l, post, h1, h2, h3, h4⟩ := Cursor.new_spec hr l1
  subst h3
  refine ⟨⟨c, hi⟩, by simp [iterChunks, hb, h1], ⟨l2, hhi, fun _ => ⟨by simp [h4, hlo], pre, l, post, h2⟩⟩, by simp [ChunkIter.rest, h4], rfl⟩

theorem foldl_append (cs : List (List UInt8)) (a : List UInt8) : cs.foldl (· ++ ·) a = a ++ cs.flatten := by
  induction cs generalizing a with
  | nil => simp
  | cons c cs ih => simp [ih]

theorem sliceToCow_spec {r : Rope} (hr : r.Balanced) {lo hi : Nat} {range : Bounds} (hb : range.intoInterval r.len = some ⟨lo, hi⟩)
    (hlo : CharBoundary r.text lo) (hhi : CharBoundary r.text hi) : r.sliceToCow range = some ((r.text.take hi).drop lo) := by
  obtain ⟨it, h1, h2, h3, h4⟩ := iterChunks_spec hr hb hlo hhi
  rw [← h3]
  simp only [sliceToCow, h1, Option.bind_eq_bind, Option.bind_some]
  by_cases e : it.rest = []
  · simp [ChunkIter.next_end e h2, e]
  · obtain ⟨it1, c1, g1, g2, g3, g4, g5, g6⟩ := ChunkIter.next_some e h2
    simp only [g1, Option.bind_some]
    by_cases e1 : it1.rest = []
    · simp [ChunkIter.next_end e1 g2, g6, e1]
    · obtain ⟨it2, c2, k1, k2, k3, k4, k5, k6⟩ := ChunkIter.next_some e1 g2
      simp only [k1, Option.bind_some]
      have := it2.rest_length_le
      obtain ⟨cs, m1, m2, -⟩ := ChunkIter.collect_spec (it2.stop + 1) k2 (by omega)
      simp [m1, foldl_append, m2, g6, k6]

end Rope

end Xi
