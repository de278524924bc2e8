import Verif.Rope.Codepoint
import Verif.Rope.CursorMetric
import Verif.Rope.LinesLemmas

/-!
# Lemmas on cursors in ropes: the metrics of ropes find their boundaries
-/

namespace Xi

theorem memrchr_last {b : UInt8} {s : List UInt8} {i : Nat} (h : memrchr b s = some i) : ∀ k, i < k → s[k]? ≠ some b := by
  induction s generalizing i with
  | nil => simp [memrchr] at h
  | cons x s ih =>
    simp only [memrchr] at h
    split at h
    · rename_i j hj
      simp at h; subst h
      intro k hk
      obtain ⟨k, rfl⟩ : ∃ m, k = m + 1 := ⟨k - 1, by omega⟩
      rw [List.getElem?_cons_succ]
      exact ih hj k (by omega)
    · rename_i hn
      split at h
      · simp at h; subst h
        intro k hk
        obtain ⟨k, rfl⟩ : ∃ m, k = m + 1 := ⟨k - 1, by omega⟩
        rw [List.getElem?_cons_succ]
        exact fun e => memrchr_none hn (List.mem_of_getElem? e)
      · simp at h

theorem finds_lines : Finds linesMetric (List.count newline) LineBoundary where
  counts := counts_lines
  inner := by
    intro a c b k _ _ _ h0 hk
    simp only [LineBoundary]
    rw [List.getElem?_append_right (by omega), show a.length + k - 1 - a.length = k - 1 by omega,
      List.getElem?_append_left (by omega)]
    constructor
    · exact fun h => ⟨h0, h.2⟩
    · exact fun h => ⟨by omega, h.2⟩
  start := by intro _ t h; exact absurd h.1 (by omega)
  ends := by intro h; cases h
  boundary := by
    intro l o _ ho
    change o ≤ l.length at ho
    simp only [linesMetric]
    by_cases h0 : o = 0
    · exact ⟨false, by simp [h0], by simp [LineBoundary, h0]⟩
    · rw [if_neg h0, List.getElem?_eq_getElem (by omega)]
      refine ⟨_, rfl, ?_⟩
      show _ ↔ LineBoundary l o
      simp only [LineBoundary, beq_iff_eq]
      rw [List.getElem?_eq_getElem (by omega)]
      simp; omega
  prev := by
    intro l o _ h0 ho
    change o ≤ l.length at ho
    simp only [linesMetric]
    rw [if_neg (by omega)]
    refine ⟨_, rfl, ?_⟩
    show IsPrev (LineBoundary l) o _
    rcases hm : memrchr newline (l.take (o - 1)) with _ | i
    · intro k hk hB
      refine memrchr_none hm (List.mem_of_getElem? (i := k - 1) ?_)
      rw [List.getElem?_take_of_lt (by have := hB.1; omega)]; exact hB.2
    · have h1 := memrchr_some hm
      have hi : i < o - 1 := by
        have := (List.getElem?_eq_some_iff.1 h1).1
        rw [List.length_take] at this; omega
      rw [List.getElem?_take_of_lt hi] at h1
      show IsPrev (LineBoundary l) o (some (i + 1))
      refine ⟨by omega, ⟨by omega, by simpa using h1⟩, ?_⟩
      intro k hk1 hk2 hB
      refine memrchr_last hm (k - 1) (by omega) ?_
      rw [List.getElem?_take_of_lt (by omega)]; exact hB.2
  next := by
    intro l o _ ho _
    change o ≤ l.length at ho
    simp only [linesMetric]
    rw [if_neg (by omega)]
    refine ⟨_, rfl, ?_⟩
    show IsNext (LineBoundary l) l.length o _
    rcases hm : memchr newline (l.drop o) with _ | i
    · intro k hk1 hk2 hB
      refine memchr_none hm (List.mem_of_getElem? (i := k - 1 - o) ?_)
      rw [List.getElem?_drop, show o + (k - 1 - o) = k - 1 by omega]; exact hB.2
    · obtain ⟨h1, h2⟩ := memchr_some hm
      rw [List.getElem?_drop] at h1
      have hlt := (List.getElem?_eq_some_iff.1 h1).1
      show IsNext (LineBoundary l) l.length o (some (o + i + 1))
      refine ⟨by omega, by omega, ⟨by omega, by simpa using h1⟩, ?_⟩
      intro k hk1 hk2 hB
      refine h2 (List.mem_of_getElem? (i := k - 1 - o) ?_)
      rw [List.getElem?_take_of_lt (by omega), List.getElem?_drop, show o + (k - 1 - o) = k - 1 by omega]; exact hB.2
  zero := by
    intro l _
    show List.count newline l = 0 ↔ ∀ k, 0 < k → k ≤ l.length → ¬ LineBoundary l k
    constructor
    · intro h k _ _ hB
      exact (List.count_eq_zero.1 h) (List.mem_of_getElem? hB.2)
    · intro h
      rw [List.count_eq_zero]
      intro hm
      obtain ⟨i, hi⟩ := List.mem_iff_getElem?.1 hm
      have hlt := (List.getElem?_eq_some_iff.1 hi).1
      exact h (i + 1) (by omega) (by omega) ⟨by omega, by simpa using hi⟩

theorem charBoundary_ends {a b : List UInt8} (ha : Utf8 a) (hb : Utf8 b) : CharBoundary (a ++ b) a.length :=
  (boundary_iff_spec (utf8_append ha hb)).1 (boundary_append hb)

theorem charBoundary_inner {a c b : List UInt8} {k : Nat} (ha : Utf8 a) (hc : Utf8 c) (hb : Utf8 b) (hk : k ≤ c.length) :
    CharBoundary (a ++ (c ++ b)) (a.length + k) ↔ CharBoundary c k := by
  rw [← boundary_iff_spec (utf8_append ha (utf8_append hc hb)), ← boundary_iff_spec hc]
  constructor
  · exact boundary_mid ha hb hc hk
  · intro h
    obtain ⟨h1, h2, h3⟩ := utf8_split hc h
    have e : a ++ (c ++ b) = (a ++ c.take k) ++ (c.drop k ++ b) := by
      rw [List.append_assoc, ← List.append_assoc (c.take k), List.take_append_drop]
    have := boundary_append (a := a ++ c.take k) (utf8_append h3 hb)
    rw [← e, List.length_append, List.length_take, Nat.min_eq_left h1] at this
    exact this

/-- The bytes of the first character. -/
theorem utf8_first {s : List UInt8} (hs : Utf8 s) (hne : s ≠ []) : ∃ (b : UInt8) (c : Char) (t : List UInt8), s = String.utf8EncodeChar c ++ t ∧ Utf8 t ∧
    s[0]? = some b ∧ (String.utf8EncodeChar c).length = lenUtf8FromFirstByte b ∧
    ∀ k, 0 < k → k < lenUtf8FromFirstByte b → ¬ CharBoundary s k := by
  obtain ⟨cs, rfl⟩ := hs
  cases cs with
  | nil => exact absurd rfl hne
  | cons c cs =>
    obtain ⟨x, r, e1, h1, h2, l1⟩ := encode_shape c
    have hl : (String.utf8EncodeChar c).length = lenUtf8FromFirstByte x := by
      rw [e1, List.length_cons, l1]
      simp only [isCont] at h1
      simp only [lenOfFirst, lenUtf8FromFirstByte]
    refine ⟨x, c, cs.flatMap String.utf8EncodeChar, by simp, ⟨cs, rfl⟩, by simp [e1], hl, ?_⟩
    intro k hk0 hk
    have hu : Utf8 ((c :: cs).flatMap String.utf8EncodeChar) := ⟨c :: cs, rfl⟩
    rw [← boundary_iff_spec hu]
    rw [← hl, e1, List.length_cons] at hk
    obtain ⟨j, rfl⟩ : ∃ j, k = j + 1 := ⟨k - 1, by omega⟩
    have hj : j < r.length := by omega
    have hg : ((c :: cs).flatMap String.utf8EncodeChar)[j + 1]? = some r[j] := by
      rw [List.flatMap_cons, e1, List.cons_append, List.getElem?_cons_succ, List.getElem?_append_left hj, List.getElem?_eq_getElem hj]
    have hlt := (List.getElem?_eq_some_iff.1 hg).1
    simp only [isCharBoundary, hg, h2 _ (List.getElem_mem hj)]
    simp at hlt ⊢; omega

theorem codepointNext_spec {l : List UInt8} {o : Nat} (hl : Utf8 l) (ho : o ≤ l.length) (hb : CharBoundary l o) :
    ∃ r, codepointNext l o = some r ∧ IsNext (CharBoundary l) l.length o r := by
  unfold codepointNext
  by_cases he : o = l.length
  · rw [if_pos he]
    exact ⟨none, rfl, fun k h1 h2 => by omega⟩
  · rw [if_neg he]
    obtain ⟨h1, h2, h3⟩ := utf8_split hl ((boundary_iff_spec hl).2 hb)
    obtain ⟨b, c, t, e1, e2, e3, e4, e5⟩ := utf8_first h3 (by
      intro h; have := congrArg List.length h; simp at this; omega)
    rw [List.getElem?_drop, Nat.add_zero] at e3
    refine ⟨some (o + lenUtf8FromFirstByte b), by simp [e3], ?_⟩
    have hlen : l.length - o = lenUtf8FromFirstByte b + t.length := by
      have := congrArg List.length e1
      rw [List.length_drop, List.length_append, e4] at this
      exact this
    have hpos : 0 < lenUtf8FromFirstByte b := by 
      unfold lenUtf8FromFirstByte; split
      · omega
      · split
        · omega
        · split <;> omega
    have hloc : ∀ k, k ≤ l.length - o → (CharBoundary l (o + k) ↔ CharBoundary (l.drop o) k) := by
      intro k hk
      have := charBoundary_inner (k := k) h2 h3 utf8_nil (by rw [List.length_drop]; exact hk)
      rwa [List.append_nil, List.take_append_drop, List.length_take, Nat.min_eq_left h1] at this
    refine ⟨by omega, by omega, ?_, ?_⟩
    · rw [hloc _ (by omega), e1, ← e4]
      exact charBoundary_ends ⟨[c], by simp⟩ e2
    · intro k k1 k2
      have := hloc (k - o) (by omega)
      rw [show o + (k - o) = k by omega] at this
      rw [this]
      exact e5 _ (by omega) (by omega)

theorem codepointPrev_spec {l : List UInt8} {o : Nat} (hl : Utf8 l) (h0 : 0 < o) (ho : o ≤ l.length) :
    ∃ r, codepointPrev l o = some r ∧ IsPrev (CharBoundary l) o r := by
  unfold codepointPrev
  rw [if_neg (by omega)]
  obtain ⟨h1, -, h3, h4⟩ := backToBoundary_spec hl (i := o - 1) (by omega)
  refine ⟨_, rfl, by omega, (boundary_iff_spec hl).1 h3, ?_⟩
  intro k k1 k2
  rw [← boundary_iff_spec hl, h4 k k1 (by omega)]
  simp

theorem char_zero {l : List UInt8} {n : Nat} (hl : Utf8 l) (hn : n = 0 ↔ l = []) :
    n = 0 ↔ ∀ k, 0 < k → k ≤ l.length → ¬ CharBoundary l k := by
  rw [hn]
  constructor
  · rintro rfl k h1 h2; simp at h2; omega
  · intro h
    have := h l.length
    have hb : CharBoundary l l.length := by
      have := charBoundary_ends hl utf8_nil
      simpa using this
    rcases Nat.eq_zero_or_pos l.length with h0 | h0
    · exact List.length_eq_zero_iff.1 h0
    · exact absurd hb (this h0 (Nat.le_refl _))

theorem finds_base : Finds baseMetric List.length CharBoundary where
  counts := counts_base
  inner ha hc hb _ hk := charBoundary_inner ha hc hb hk
  start := by intro h; cases h
  ends _ _ _ ha hb := charBoundary_ends ha hb
  boundary {l o} hl _ := ⟨_, rfl, boundary_iff_spec hl.1⟩
  prev {l o} hl h0 ho := codepointPrev_spec hl.1 h0 ho
  next {l o} hl ho hb := codepointNext_spec hl.1 ho (hb rfl)
  zero {l} hl := char_zero hl.1 List.length_eq_zero_iff

theorem countUtf16_zero {l : List UInt8} (hl : Utf8 l) : countUtf16CodeUnits l = 0 ↔ l = [] := by
  constructor
  · intro h
    obtain ⟨cs, rfl⟩ := hl
    cases cs with
    | nil => rfl
    | cons c cs =>
      exfalso
      obtain ⟨x, r, e1, h1, -⟩ := encode_shape c
      rw [countUtf16_eq, List.flatMap_cons, e1] at h
      simp [utf16OfByte, h1] at h
      
  · rintro rfl; rfl

theorem finds_utf16 : Finds utf16Metric countUtf16CodeUnits CharBoundary where
  counts := counts_utf16
  inner ha hc hb _ hk := charBoundary_inner ha hc hb hk
  start := by intro h; cases h
  ends _ _ _ ha hb := charBoundary_ends ha hb
  boundary {l o} hl _ := ⟨_, rfl, boundary_iff_spec hl.1⟩
  prev {l o} hl h0 ho := codepointPrev_spec hl.1 h0 ho
  next {l o} hl ho hb := codepointNext_spec hl.1 ho (hb rfl)
  zero {l} hl := char_zero hl.1 (countUtf16_zero hl.1)

theorem firstChar_encode (c : Char) (t : List UInt8) : firstChar (String.utf8EncodeChar c ++ t) = some c := by
  unfold firstChar
  have := @ByteArray.utf8DecodeChar?_utf8EncodeChar_append ⟨t.toArray⟩ c
  have e : (⟨(String.utf8EncodeChar c ++ t).toArray⟩ : ByteArray) = (String.utf8EncodeChar c).toByteArray ++ ⟨t.toArray⟩ := by
    apply ByteArray.ext
    simp
  rw [e]; exact this

namespace Cursor

/-- What stands at a boundary inside the leaf of a cursor. -/
theorem charAt_spec {c : Cursor (List UInt8) RopeInfo} {pre post : List (List UInt8)} {l : List UInt8} (h : c.At pre l post) {o : Nat}
    (ho : o < l.length) (hb : CharBoundary c.root.text (lenOf pre + o)) :
    ∃ ch, charAt l o = some (some ch) ∧ (∃ t, c.root.text.drop (lenOf pre + o) = String.utf8EncodeChar ch ++ t) ∧
      o + (String.utf8EncodeChar ch).length ≤ l.length ∧ CharBoundary c.root.text (lenOf pre + o + (String.utf8EncodeChar ch).length) := by
  have hlu : Utf8 l := h.ok.1
  have hrt := Rope.text_utf8 h.balanced
  have hb' := h.boundary (p := lenOf pre + o) ((boundary_iff_spec hrt).2 hb) (by omega) (by omega)
  rw [Nat.add_sub_cancel_left] at hb'
  obtain ⟨h1, h2, h3⟩ := utf8_split hlu hb'
  obtain ⟨b, ch, t, e1, e2, -, -, -⟩ := utf8_first h3 (by intro h; have := congrArg List.length h; simp at this; omega)
  have hlen : l.length - o = (String.utf8EncodeChar ch).length + t.length := by
    have := congrArg List.length e1
    rw [List.length_drop, List.length_append] at this
    exact this
  have hdrop : c.root.text.drop (lenOf pre + o) = String.utf8EncodeChar ch ++ (t ++ post.flatMap (LeafSpec.content (L := List UInt8))) := by
    rw [h.text, show LeafSpec.content (L := List UInt8) l = l from rfl,
      show lenOf pre + o = (pre.flatMap (LeafSpec.content (L := List UInt8))).length + o from rfl,
      List.drop_length_add_append, List.drop_append_of_le_length h1, e1, List.append_assoc]
  refine ⟨ch, ?_, ⟨_, hdrop⟩, by omega, ?_⟩
  · rw [charAt, strSlice_spec h1 hb' boundary_length]
    simp [e1, firstChar_encode]
  · have hloc : CharBoundary l (o + (String.utf8EncodeChar ch).length) := by
      have : l = (l.take o ++ String.utf8EncodeChar ch) ++ t := by
        rw [List.append_assoc, ← e1, List.take_append_drop]
      have h4 := charBoundary_ends (utf8_append h2 (⟨[ch], by simp⟩ : Utf8 (String.utf8EncodeChar ch))) e2
      rw [← this, List.length_append, List.length_take, Nat.min_eq_left h1] at h4
      exact h4
    have := h.globalOf finds_base (k := o + (String.utf8EncodeChar ch).length) (by
      show _ ≤ l.length; omega) hloc
    rwa [← Nat.add_assoc] at this

/-- What each metric measures. -/
theorem finds_metricOf (m : RopeMetric) : ∃ μ, Finds (metricOf m) μ m.Boundary := by
  cases m
  · exact ⟨_, finds_base⟩
  · exact ⟨_, finds_lines⟩
  · exact ⟨_, finds_utf16⟩

theorem metricOf_forward {m : RopeMetric} {s : List UInt8} {p : Nat} (h : m = .lines ∨ CharBoundary s p) :
    (metricOf m).canFragment = false → m.Boundary s p := by
  intro hf
  rcases h with rfl | h
  · cases hf
  · cases m
    · exact h
    · cases hf
    · exact h

theorem metricOf_fragment {m : RopeMetric} {s : List UInt8} {p : Nat} (h : m = .lines ∨ CharBoundary s p) :
    (metricOf m).canFragment = true ∨ m.Boundary s p := by
  cases hc : (metricOf m).canFragment
  · exact .inr (metricOf_forward h hc)
  · exact .inl rfl

theorem isPrev_unique {B : Nat → Prop} {p : Nat} {r r' : Option Nat} (h : IsPrev B p r) (h' : IsPrev B p r') : r = r' := by
  cases r <;> cases r' <;> simp only [IsPrev] at h h'
  · rfl
  · exact absurd h'.2.1 (h _ h'.1)
  · exact absurd h.2.1 (h' _ h.1)
  · rename_i a b
    rcases Nat.lt_trichotomy a b with hlt | rfl | hlt
    · exact absurd h'.2.1 (h.2.2 _ hlt h'.1)
    · rfl
    · exact absurd h.2.1 (h'.2.2 _ hlt h.1)

theorem isNext_unique {B : Nat → Prop} {n p : Nat} {r r' : Option Nat} (h : IsNext B n p r) (h' : IsNext B n p r') : r = r' := by
  cases r <;> cases r' <;> simp only [IsNext] at h h'
  · rfl
  · exact absurd h'.2.2.1 (h _ h'.1 h'.2.1)
  · exact absurd h.2.2.1 (h' _ h.1 h.2.1)
  · rename_i a b
    rcases Nat.lt_trichotomy a b with hlt | rfl | hlt
    · exact absurd h.2.2.1 (h'.2.2.2 _ h.1 hlt)
    · rfl
    · exact absurd h'.2.2.1 (h.2.2.2 _ h'.1 hlt)

theorem isAtOrNext_unique {B : Nat → Prop} {n p : Nat} {r r' : Option Nat} (h : IsAtOrNext B n p r) (h' : IsAtOrNext B n p r') : r = r' := by
  cases r <;> cases r' <;> simp only [IsAtOrNext] at h h'
  · rfl
  · exact absurd h'.2.2.1 (h _ h'.1 h'.2.1)
  · exact absurd h.2.2.1 (h' _ h.1 h.2.1)
  · rename_i a b
    rcases Nat.lt_trichotomy a b with hlt | rfl | hlt
    · exact absurd h.2.2.1 (h'.2.2.2 _ h.1 hlt)
    · rfl
    · exact absurd h'.2.2.1 (h.2.2.2 _ h'.1 hlt)

theorem isAtOrNext_of {B : Nat → Prop} {n p : Nat} {r : Option Nat} (hp : p ≤ n) (h : B p ∧ r = some p ∨ ¬ B p ∧ IsNext B n p r) :
    IsAtOrNext B n p r := by
  rcases h with ⟨h, rfl⟩ | ⟨h, h'⟩
  · exact ⟨Nat.le_refl _, hp, h, by intros; omega⟩
  · cases r with
    | none =>
      intro k h1 h2 hB
      by_cases e : k = p
      · subst e; exact h hB
      · exact h' k (by omega) h2 hB
    | some b =>
      obtain ⟨h1, h2, h3, h4⟩ := h'
      refine ⟨by omega, h2, h3, ?_⟩
      intro k k1 k2 hB
      by_cases e : k = p
      · subst e; exact h hB
      · exact h4 k (by omega) k2 hB

theorem encode_inj {a b : Char} {s t : List UInt8} (h : String.utf8EncodeChar a ++ s = String.utf8EncodeChar b ++ t) : a = b := by
  have h1 := firstChar_encode a s
  rw [h, firstChar_encode] at h1
  exact (Option.some.inj h1).symm

theorem charAt_unique {s : List UInt8} {p : Nat} {a b : Option Char} (h : CharAt s p a) (h' : CharAt s p b) : a = b := by
  have hlen : ∀ (c : Char) (t : List UInt8), 0 < (String.utf8EncodeChar c ++ t).length := by
    intro c t
    obtain ⟨x, r, e, -⟩ := encode_shape c
    rw [e]; simp
  cases a <;> cases b <;> simp only [CharAt] at h h'
  · rfl
  · obtain ⟨t, h'⟩ := h'
    rename_i c
    have := hlen c t
    rw [← h', List.length_drop] at this; omega
  · obtain ⟨t, h⟩ := h
    rename_i c
    have := hlen c t
    rw [← h, List.length_drop] at this; omega
  · obtain ⟨t, h⟩ := h
    obtain ⟨t', h'⟩ := h'
    rw [h] at h'
    rw [encode_inj h']

/-- The character at the position of a cursor. -/
theorem leafChar {c : Cursor (List UInt8) RopeInfo} {pre post : List (List UInt8)} {l : List UInt8} (h : c.Valid pre l post)
    (hb : CharBoundary c.root.text c.position) :
    ∃ ch, c.getLeaf = some (some (l, c.position - lenOf pre)) ∧ charAt l (c.position - lenOf pre) = some ch ∧
      CharAt c.root.text c.position ch := by
  have hlo := h.lo
  have hg : c.getLeaf = some (some (l, c.position - lenOf pre)) := by
    simp only [getLeaf, h.leaf, h.off]
    rw [if_pos hlo]
  rcases h.hi with h1 | ⟨h1, h2⟩
  · change c.position < lenOf pre + l.length at h1
    obtain ⟨ch, e1, e2, -⟩ := charAt_spec h.toAt (o := c.position - lenOf pre) (by omega) (by
      rw [show lenOf pre + (c.position - lenOf pre) = c.position by omega]; exact hb)
    rw [show lenOf pre + (c.position - lenOf pre) = c.position by omega] at e2
    exact ⟨some ch, hg, e1, e2⟩
  · change c.position = lenOf pre + l.length at h2
    refine ⟨none, hg, ?_, ?_⟩
    · rw [show c.position - lenOf pre = l.length by omega, charAt, strSlice_spec (Nat.le_refl _) boundary_length boundary_length]
      simp only [List.take_length, List.drop_length]
      rfl
    · show c.position = c.root.text.length
      rw [h.text, h1, h2]
      show _ = (pre.flatMap (LeafSpec.content (L := List UInt8)) ++ (l ++ [])).length
      rw [List.length_append, List.append_nil]; rfl

theorem call_spec {r : Rope} {c : Cursor (List UInt8) RopeInfo} {st st' : Option Nat} {x : CursorCall} {reply : CursorReply}
    (h : Stands r c st) (hs : CursorStep r.text st x reply st') : ∃ c', c.call x = some (c', reply) ∧ Stands r c' st' := by
  cases hs with
  | @set _ p hp =>
    have hsh : c.Shape ∧ (c.leaf = none ∨ ∃ pre l post, c.At pre l post) ∧ c.root = r := by
      cases st with
      | none => exact ⟨h.2.2, .inl h.2.1, h.1⟩
      | some q =>
        obtain ⟨h1, h2, pre, l, post, h3⟩ := h
        exact ⟨h3.toAt.shape, .inr ⟨pre, l, post, h3.toAt⟩, h1⟩
    obtain ⟨h1, h2, rfl⟩ := hsh
    obtain ⟨c', pre, l, post, e1, e2, e3, e4⟩ := set_spec h1 h2 hp
    exact ⟨c', by simp [call, e1], e3, e4, pre, l, post, e2⟩
  | @isBoundary m p b hb =>
    obtain ⟨rfl, rfl, pre, l, post, h⟩ := h
    obtain ⟨μ, hM⟩ := finds_metricOf m
    obtain ⟨c', b', e1, e2, e3, e4, e5⟩ := isBoundary_spec hM h
    have : b' = b := by rw [Bool.eq_iff_iff, e2, hb]
    subst this
    exact ⟨c', by simp [call, e1], e4, e5, pre, l, post, e3⟩
  | isBoundaryLost => exact ⟨c, by simp [call, Cursor.isBoundary, h.2.1], h⟩
  | @prev m p q hq =>
    obtain ⟨rfl, rfl, pre, l, post, h⟩ := h
    obtain ⟨μ, hM⟩ := finds_metricOf m
    obtain ⟨c', q', e1, e2, e3⟩ := prev_spec hM h
    obtain rfl := isPrev_unique hq e2
    exact ⟨c', by simp [call, e1], e3.stands rfl⟩
  | prevLost =>
    obtain ⟨root, pos, cache, leaf, off⟩ := c
    obtain ⟨h1, h2, h3⟩ := h
    simp only at h2; subst h2
    exact ⟨_, by simp [call, Cursor.prev], h1, rfl, h3⟩
  | @next m p q hp hq =>
    obtain ⟨rfl, rfl, pre, l, post, h⟩ := h
    obtain ⟨μ, hM⟩ := finds_metricOf m
    obtain ⟨c', q', e1, e2, e3⟩ := next_spec hM h (metricOf_forward hp)
    obtain rfl := isNext_unique hq e2
    exact ⟨c', by simp [call, e1], e3.stands rfl⟩
  | nextLost =>
    obtain ⟨root, pos, cache, leaf, off⟩ := c
    obtain ⟨h1, h2, h3⟩ := h
    simp only at h2; subst h2
    exact ⟨_, by simp [call, Cursor.next], h1, rfl, h3⟩
  | @atOrPrev m p q hq =>
    obtain ⟨rfl, rfl, pre, l, post, h⟩ := h
    obtain ⟨μ, hM⟩ := finds_metricOf m
    obtain ⟨c', q', e1, e2, e3⟩ := atOrPrev_spec hM h
    obtain rfl := isPrev_unique hq e2
    exact ⟨c', by simp [call, e1], e3.stands rfl⟩
  | atOrPrevLost =>
    obtain ⟨root, pos, cache, leaf, off⟩ := c
    obtain ⟨h1, h2, h3⟩ := h
    simp only at h2; subst h2
    exact ⟨_, by simp [call, Cursor.atOrPrev, Cursor.isBoundary, Cursor.prev], h1, rfl, h3⟩
  | @atOrNext m p q hp hq =>
    obtain ⟨rfl, rfl, pre, l, post, h⟩ := h
    obtain ⟨μ, hM⟩ := finds_metricOf m
    obtain ⟨c', q', e1, e2, e3⟩ := atOrNext_spec hM h (metricOf_fragment hp)
    obtain rfl := isAtOrNext_unique hq (isAtOrNext_of h.position_le e3)
    exact ⟨c', by simp [call, e1], e2.stands rfl⟩
  | atOrNextLost =>
    obtain ⟨root, pos, cache, leaf, off⟩ := c
    obtain ⟨h1, h2, h3⟩ := h
    simp only at h2; subst h2
    exact ⟨_, by simp [call, Cursor.atOrNext, Cursor.isBoundary, Cursor.next], h1, rfl, h3⟩
  | @prevCodepoint p q ch hq hch =>
    obtain ⟨rfl, rfl, pre, l, post, h⟩ := h
    obtain ⟨c', q', e1, e2, e3⟩ := prev_spec finds_base h
    obtain rfl := isPrev_unique hq e2
    obtain ⟨h1, pre', l', post', h2⟩ := e3.found q rfl
    obtain ⟨ch', g1, g2, g3⟩ := leafChar h2 (by rw [e3.root, h1]; exact hq.2.1)
    rw [e3.root, h1] at g3
    obtain rfl := charAt_unique hch g3
    exact ⟨c', by simp [call, Cursor.prevCodepoint, e1, g1, g2], e3.root, h1, pre', l', post', h2⟩
  | prevCodepointNone =>
    obtain ⟨rfl, h0, pre, l, post, h⟩ := h
    obtain ⟨c', q', e1, e2, e3⟩ := prev_spec finds_base h
    rw [h0] at e2
    have : q' = none := by
      cases q' with
      | none => rfl
      | some b => exact absurd e2.1 (by omega)
    subst this
    exact ⟨c', by simp [call, Cursor.prevCodepoint, e1, getLeaf, (e3.lost rfl).1], e3.stands rfl⟩
  | prevCodepointLost =>
    obtain ⟨root, pos, cache, leaf, off⟩ := c
    obtain ⟨h1, h2, h3⟩ := h
    simp only at h2; subst h2
    exact ⟨_, by simp [call, Cursor.prevCodepoint, Cursor.prev, getLeaf], h1, rfl, h3⟩
  | @nextCodepoint p q ch hp hch hq =>
    obtain ⟨rfl, rfl, pre, l, post, h⟩ := h
    obtain ⟨c', q', e1, e2, e3⟩ := next_spec finds_base h (fun _ => hp)
    obtain rfl := isNext_unique hq e2
    obtain ⟨ch', g1, g2, g3⟩ := leafChar h hp
    obtain rfl := charAt_unique hch g3
    exact ⟨c', by simp [call, Cursor.nextCodepoint, e1, g1, g2], e3.stands rfl⟩
  | nextCodepointLost =>
    obtain ⟨h1, h2, h3⟩ := h
    exact ⟨c, by simp [call, Cursor.nextCodepoint, getLeaf, h2], h1, h2, h3⟩
  | @peek p ch hp hch =>
    obtain ⟨rfl, rfl, pre, l, post, h⟩ := h
    obtain ⟨ch', g1, g2, g3⟩ := leafChar h hp
    obtain rfl := charAt_unique hch g3
    exact ⟨c, by simp [call, Cursor.peekNextCodepoint, g1, g2], rfl, rfl, pre, l, post, h⟩
  | peekLost =>
    obtain ⟨h1, h2, h3⟩ := h
    exact ⟨c, by simp [call, Cursor.peekNextCodepoint, getLeaf, h2], h1, h2, h3⟩

theorem calls_spec {r : Rope} {c : Cursor (List UInt8) RopeInfo} {st : Option Nat} {xs : List CursorCall} {replies : List CursorReply}
    (h : Stands r c st) (ht : CursorTrace r.text st xs replies) : c.calls xs = some replies := by
  induction ht generalizing c with
  | nil => rfl
  | cons hs _ ih =>
    obtain ⟨c', e, h'⟩ := call_spec h hs
    simp [calls, e, ih h']

end Cursor

end Xi
