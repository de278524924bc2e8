import Verif.Props.Rope
import Verif.Rope.RopeCursor

/-!
# Iterating over ropes and moving cursors (rope/src/tree.rs, rope/src/rope.rs): C06, C52
-/

namespace Xi

theorem bounds_cut {r : Rope} (hr : r.Balanced) {range : Bounds} (h : range.lo ≤ range.hi r.text.length) :
    range.intoInterval r.len = some ⟨range.lo, range.hi r.text.length⟩ := by
  rw [Rope.len_eq hr]; exact bounds_spec h

/-- **C06.** The chunks of a range are, in order, exactly the text of the range;
none is empty and none cuts a character. -/
theorem C06_chunks (r : Rope) (range : Bounds) (hr : r.Balanced) (h : range.lo ≤ range.hi r.text.length)
    (hlo : CharBoundary r.text range.lo) (hhi : CharBoundary r.text (range.hi r.text.length)) :
    ∃ cs, r.chunks range = some cs ∧ cs.flatten = (r.text.take (range.hi r.text.length)).drop range.lo ∧
      ∀ c ∈ cs, c ≠ [] ∧ Utf8 c := by
  obtain ⟨it, h1, h2, h3, h4⟩ := Rope.iterChunks_spec hr (bounds_cut hr h) hlo hhi
  obtain ⟨cs, g1, g2, g3⟩ := ChunkIter.collect_spec (it.stop + 1) h2 (by have := it.rest_length_le; omega)
  exact ⟨cs, by simp [Rope.chunks, h1, g1], by rw [g2, h3], g3⟩

/-- **C06.** `lines_raw`: the lines, with their endings, of the text of the range;
no matter how the text is cut into leaves. -/
theorem C06_lines_raw (r : Rope) (range : Bounds) (hr : r.Balanced) (h : range.lo ≤ range.hi r.text.length)
    (hlo : CharBoundary r.text range.lo) (hhi : CharBoundary r.text (range.hi r.text.length)) :
    ∃ ls, r.linesRaw range = some ls ∧ IsRawLines ls ((r.text.take (range.hi r.text.length)).drop range.lo) := by
  obtain ⟨it, h1, h2, h3, h4⟩ := Rope.iterChunks_spec hr (bounds_cut hr h) hlo hhi
  obtain ⟨ls, g1, g2⟩ := LinesRaw.collect_spec (it.stop + 1) (it := ⟨it, []⟩) ⟨h2, utf8_nil⟩ (by
    have := it.rest_length_le; simp [LinesRaw.rest]; omega)
  refine ⟨ls, by simp [Rope.linesRaw, h1, g1], ?_⟩
  rw [← h3]; simpa [LinesRaw.rest] using g2

/-- Two lists of raw lines of the same text are the same. -/
theorem rawLines_unique {ls ls' : List (List UInt8)} {s : List UInt8} (h : IsRawLines ls s) (h' : IsRawLines ls' s) : ls = ls' := by
  have key : ∀ (ls ls' : List (List UInt8)) (s : List UInt8), IsRawLines ls s → IsRawLines ls' s → ls = ls' := by
    intro ls
    induction ls with
    | nil =>
      intro ls' s h h'
      cases ls' with
      | nil => rfl
      | cons m ms =>
        have := h'.text
        rw [← h.text] at this
        exact absurd (by simpa using congrArg (List.take m.length) this) (h'.nonempty m (by simp))
    | cons l ls ih =>
      intro ls' s h h'
      cases ls' with
      | nil =>
        have := h.text
        rw [← h'.text] at this
        exact absurd (by simpa using congrArg (List.take l.length) this) (h.nonempty l (by simp))
      | cons m ms =>
        have tail : ∀ {l : List UInt8} {ls : List (List UInt8)} {s : List UInt8}, IsRawLines (l :: ls) s → IsRawLines ls ls.flatten := by
          intro l ls s h
          refine ⟨rfl, fun x hx => h.nonempty x (by simp [hx]), fun x hx => h.inner x (by simp [hx]), fun x hx => h.ended x ?_⟩
          cases ls with
          | nil => simp at hx
          | cons y ys => simp only [List.dropLast_cons_cons, List.mem_cons]; exact .inr hx
        -- a first line cannot be a proper prefix of another
        have pre : ∀ {l m : List UInt8} {ls ms : List (List UInt8)} {s : List UInt8}, IsRawLines (l :: ls) s → IsRawLines (m :: ms) s →
            l.length ≤ m.length → l = m := by
          intro l m ls ms s h h' hle
          have e : l ++ ls.flatten = m ++ ms.flatten := by
            have h1 := h.text; have h2 := h'.text
            rw [List.flatten_cons] at h1 h2
            rw [h1, h2]
          rw [List.append_eq_append_iff] at e
          rcases e with ⟨c, e1, e2⟩ | ⟨c, e1, e2⟩
          · cases c with
            | nil => rw [e1, List.append_nil]
            | cons x c =>
              exfalso
              cases ls with
              | nil => simp at e2
              | cons y ys =>
                have hend := h.ended l (by simp)
                obtain ⟨t, ht⟩ := List.getLast?_eq_some_iff.1 hend
                refine h'.inner m (by simp) ?_
                rw [e1, List.dropLast_append_of_ne_nil (by simp), ht]
                simp
          · have : c = [] := by
              have := congrArg List.length e1
              rw [List.length_append] at this
              exact List.length_eq_zero_iff.1 (by omega)
            rw [e1, this, List.append_nil]
        have hlm : l = m := by
          rcases Nat.le_total l.length m.length with hle | hle
          · exact pre h h' hle
          · exact (pre h' h hle).symm
        subst hlm
        have e : ls.flatten = ms.flatten := by
          have h1 := h.text; have h2 := h'.text
          rw [List.flatten_cons] at h1 h2
          rw [← h2] at h1
          exact List.append_cancel_left h1
        have t2 := tail h'
        rw [← e] at t2
        rw [ih ms _ (tail h) t2]
  exact key ls ls' s h h'

/-- **C06.** The lines do not depend on the shape of the tree: two ropes with the
same text have the same raw lines. -/
theorem C06_lines_shape (r r' : Rope) (hr : r.Balanced) (hr' : r'.Balanced) (h : r.text = r'.text) :
    r.linesRaw .full = r'.linesRaw .full ∧ (r.linesRaw .full).isSome := by
  have zero : ∀ s : List UInt8, Utf8 s → CharBoundary s 0 := fun s ⟨cs, h⟩ => ⟨[], cs, by simp [h], rfl⟩
  have last : ∀ s : List UInt8, Utf8 s → CharBoundary s s.length := fun s ⟨cs, h⟩ => ⟨cs, [], by simp [h], by simp [h]⟩
  have hu := Rope.text_utf8 hr
  have hu' := Rope.text_utf8 hr'
  obtain ⟨ls, g1, g2⟩ := C06_lines_raw r .full hr (by simp [Bounds.lo, Bounds.hi]) (zero _ hu) (last _ hu)
  obtain ⟨ls', g1', g2'⟩ := C06_lines_raw r' .full hr' (by simp [Bounds.lo, Bounds.hi]) (zero _ hu') (last _ hu')
  simp only [Bounds.lo, Bounds.hi, List.take_length, List.drop_zero] at g2 g2'
  rw [h] at g2
  rw [g1, g1', rawLines_unique g2 g2']
  exact ⟨rfl, rfl⟩

/-- **C06.** `lines`: each raw line without its ending, `\n` or `\r\n`. -/
theorem C06_lines (r : Rope) (range : Bounds) (hr : r.Balanced) (h : range.lo ≤ range.hi r.text.length)
    (hlo : CharBoundary r.text range.lo) (hhi : CharBoundary r.text (range.hi r.text.length)) :
    ∃ raw ls, r.lines range = some ls ∧ IsRawLines raw ((r.text.take (range.hi r.text.length)).drop range.lo) ∧
      ls.length = raw.length ∧ ∀ (i : Nat) (l m : List UInt8), ls[i]? = some l → raw[i]? = some m → IsLineOf l m := by
  obtain ⟨raw, h1, h2⟩ := C06_lines_raw r range hr h hlo hhi
  refine ⟨raw, raw.map stripEnding, by simp [Rope.lines, h1], h2, by simp, ?_⟩
  intro i l m hl hm
  rw [List.getElem?_map, hm] at hl
  simp at hl; subst hl
  exact stripEnding_spec m

/-- **C06.** `slice_to_cow` is the text of the range, and `String::from` the whole
text. -/
theorem C06_slice_to_cow (r : Rope) (range : Bounds) (hr : r.Balanced) (h : range.lo ≤ range.hi r.text.length)
    (hlo : CharBoundary r.text range.lo) (hhi : CharBoundary r.text (range.hi r.text.length)) :
    r.sliceToCow range = some ((r.text.take (range.hi r.text.length)).drop range.lo) :=
  Rope.sliceToCow_spec hr (bounds_cut hr h) hlo hhi

/-- **C06.** `String::from`, the whole text. -/
theorem C06_to_string (r : Rope) (hr : r.Balanced) : r.toStr = some r.text := by
  obtain ⟨cs, hu⟩ := Rope.text_utf8 hr
  have := C06_slice_to_cow r .full hr (by simp [Bounds.lo, Bounds.hi]) ⟨[], cs, by simp [hu], rfl⟩
    ⟨cs, [], by simp [Bounds.hi, hu], by simp [Bounds.hi, hu]⟩
  rw [Rope.toStr, this]; simp [Bounds.lo, Bounds.hi]

/-- **C06.** `byte_at` gives the byte at an offset, and panics from the end on. -/
theorem C06_byte_at (r : Rope) (off : Nat) (hr : r.Balanced) (h : off ≤ r.text.length) : r.byteAt off = r.text[off]? := by
  obtain ⟨c, pre, l, post, h1, h2, h3, h4⟩ := Cursor.new_spec hr h
  have hlo := h2.lo
  have hhi : c.position - lenOf pre ≤ l.length := by
    rcases h2.hi with h | ⟨-, h⟩
    · change c.position < lenOf pre + l.length at h; omega
    · change c.position = lenOf pre + l.length at h; omega
  have hg : c.getLeaf = some (some (l, c.position - lenOf pre)) := by
    simp only [Cursor.getLeaf, h2.leaf, h2.off]
    rw [if_pos hlo]
  have ht := h2.text
  rw [h3] at ht
  simp only [Rope.byteAt, h1, Option.bind_eq_bind, Option.bind_some, hg]
  have hx : lenOf pre = (pre.flatMap (LeafSpec.content (L := List UInt8))).length := rfl
  have hc : LeafSpec.content (L := List UInt8) l = l := rfl
  rw [ht, hc, List.getElem?_append_right (by omega), ← hx, ← h4]
  rcases h2.hi with h | ⟨hp, h⟩
  · change c.position < lenOf pre + l.length at h
    rw [List.getElem?_append_left (by omega)]
  · change c.position = lenOf pre + l.length at h
    rw [hp]; simp

/-- **C52.** Whatever calls are made on a cursor, it answers as if it searched the
plain string: its cache of the path to the current leaf never makes a difference, and
it never panics. -/
theorem C52_cursor_calls (r : Rope) (p : Nat) (calls : List CursorCall) (replies : List CursorReply) (hr : r.Balanced)
    (hp : p ≤ r.text.length) (h : CursorTrace r.text (some p) calls replies) :
    (Cursor.new r p).bind (·.calls calls) = some replies := by
  obtain ⟨c, pre, l, post, h1, h2, h3, h4⟩ := Cursor.new_spec hr hp
  rw [h1, Option.bind_some]
  exact Cursor.calls_spec (r := r) (st := some p) ⟨h3, h4, pre, l, post, h2⟩ h

/-- **C52.** Every legal call has an answer that the specification allows. -/
theorem C52_step_total (s : List UInt8) (m : RopeMetric) (p : Nat) :
    (∃ r, IsPrev (m.Boundary s) p r) ∧ (∃ r, IsNext (m.Boundary s) s.length p r) := by
  classical
  constructor
  · induction p with
    | zero => exact ⟨none, fun k hk => by omega⟩
    | succ p ih =>
      by_cases hB : m.Boundary s p
      · exact ⟨some p, by omega, hB, by intros; omega⟩
      · obtain ⟨r, hr⟩ := ih
        refine ⟨r, ?_⟩
        cases r with
        | none =>
          intro k hk hB'
          by_cases e : k = p
          · subst e; exact hB hB'
          · exact hr k (by omega) hB'
        | some b =>
          refine ⟨by have := hr.1; omega, hr.2.1, ?_⟩
          intro k k1 k2 hB'
          by_cases e : k = p
          · subst e; exact hB hB'
          · exact hr.2.2 k k1 (by omega) hB'
  · by_cases h : ∃ k, p < k ∧ k ≤ s.length ∧ m.Boundary s k
    · obtain ⟨k, h1, h2, h3⟩ := h
      have : ∀ n k, k ≤ n → p < k → k ≤ s.length → m.Boundary s k → ∃ r, IsNext (m.Boundary s) s.length p r := by
        intro n
        induction n with
        | zero => intros; omega
        | succ n ih =>
          intro k hk h1 h2 h3
          by_cases hx : ∃ j, p < j ∧ j < k ∧ m.Boundary s j
          · obtain ⟨j, j1, j2, j3⟩ := hx
            exact ih j (by omega) j1 (by omega) j3
          · exact ⟨some k, h1, h2, h3, fun j j1 j2 j3 => hx ⟨j, j1, j2, j3⟩⟩
      exact this k k (Nat.le_refl _) h1 h2 h3
    · exact ⟨none, fun k h1 h2 h3 => h ⟨k, h1, h2, h3⟩⟩

/-- **C52.** `is_codepoint_boundary`. -/
theorem C52_is_codepoint_boundary (r : Rope) (off : Nat) (hr : r.Balanced) (h : off ≤ r.text.length) :
    ∃ b, r.isCodepointBoundary off = some b ∧ (b = true ↔ CharBoundary r.text off) := by
  obtain ⟨c, pre, l, post, h1, h2, rfl, rfl⟩ := Cursor.new_spec hr h
  obtain ⟨c', b, e1, e2, -⟩ := Cursor.isBoundary_spec finds_base h2
  exact ⟨b, by simp [Rope.isCodepointBoundary, h1, e1], e2⟩

/-- **C52.** `prev_codepoint_offset`, from any offset. -/
theorem C52_prev_codepoint_offset (r : Rope) (off : Nat) (hr : r.Balanced) (h : off ≤ r.text.length) :
    ∃ p, r.prevCodepointOffset off = some p ∧ IsPrev (CharBoundary r.text) off p := by
  obtain ⟨c, pre, l, post, h1, h2, rfl, rfl⟩ := Cursor.new_spec hr h
  obtain ⟨c', p, e1, e2, -⟩ := Cursor.prev_spec finds_base h2
  exact ⟨p, by simp [Rope.prevCodepointOffset, h1, e1], e2⟩

/-- **C52.** `next_codepoint_offset`, from a character boundary. -/
theorem C52_next_codepoint_offset (r : Rope) (off : Nat) (hr : r.Balanced) (h : off ≤ r.text.length)
    (hb : CharBoundary r.text off) :
    ∃ p, r.nextCodepointOffset off = some p ∧ IsNext (CharBoundary r.text) r.text.length off p := by
  obtain ⟨c, pre, l, post, h1, h2, rfl, rfl⟩ := Cursor.new_spec hr h
  obtain ⟨c', p, e1, e2, -⟩ := Cursor.next_spec finds_base h2 (fun _ => hb)
  exact ⟨p, by simp [Rope.nextCodepointOffset, h1, e1], e2⟩

/-- **C52.** `at_or_prev_codepoint_boundary`, from any offset: the last boundary
that is not after it. -/
theorem C52_at_or_prev_codepoint (r : Rope) (off : Nat) (hr : r.Balanced) (h : off ≤ r.text.length) :
    ∃ p, r.atOrPrevCodepointBoundary off = some p ∧ IsPrev (CharBoundary r.text) (off + 1) p := by
  obtain ⟨b, h1, h2⟩ := C52_is_codepoint_boundary r off hr h
  simp only [Rope.atOrPrevCodepointBoundary, h1, Option.bind_eq_bind, Option.bind_some]
  cases b with
  | true => exact ⟨some off, by simp, by omega, h2.1 rfl, by intros; omega⟩
  | false =>
    have hn : ¬ CharBoundary r.text off := by simpa using h2
    obtain ⟨p, g1, g2⟩ := C52_prev_codepoint_offset r off hr h
    refine ⟨p, by simp [g1], ?_⟩
    cases p with
    | none =>
      intro k hk hB
      by_cases e : k = off
      · subst e; exact hn hB
      · exact g2 k (by omega) hB
    | some b =>
      refine ⟨by have := g2.1; omega, g2.2.1, ?_⟩
      intro k k1 k2 hB
      by_cases e : k = off
      · subst e; exact hn hB
      · exact g2.2.2 k k1 (by omega) hB

/-- **C52** (defect).  `at_or_next_codepoint_boundary` is documented to return the
next boundary when the offset is not one.  Inside a character it returns an offset
beyond the end of the text, or inside another character. -/
theorem C52_at_or_next_refuted :
    (∃ r : Rope, r.Balanced ∧ r.text.length = 2 ∧ r.atOrNextCodepointBoundary 1 = some (some 3)) ∧
    (∃ r : Rope, r.Balanced ∧ ¬ CharBoundary r.text 4 ∧ r.text.length = 6 ∧ r.atOrNextCodepointBoundary 2 = some (some 4)) := by
  have h1 : Utf8 [0xc3, 0xa9] := ⟨['é'], by decide⟩
  have h2 : Utf8 [0xe2, 0x82, 0xac, 0xe2, 0x82, 0xac] := ⟨['€', '€'], by decide⟩
  refine ⟨⟨Node.fromLeaf [0xc3, 0xa9], ⟨0, Node.wf_fromLeaf ⟨h1, by decide⟩⟩, by decide, by decide +kernel⟩,
    ⟨Node.fromLeaf [0xe2, 0x82, 0xac, 0xe2, 0x82, 0xac], ⟨0, Node.wf_fromLeaf ⟨h2, by decide⟩⟩, ?_, by decide, by decide +kernel⟩⟩
  rw [← boundary_iff_spec (s := (Node.fromLeaf [0xe2, 0x82, 0xac, 0xe2, 0x82, 0xac] : Rope).text) h2]
  decide +kernel

/-- **C52** (partial).  `at_or_next_codepoint_boundary` at a character boundary. -/
theorem C52_at_or_next_partial (r : Rope) (off : Nat) (hr : r.Balanced) (h : off ≤ r.text.length) (hb : CharBoundary r.text off) :
    r.atOrNextCodepointBoundary off = some (some off) := by
  obtain ⟨b, h1, h2⟩ := C52_is_codepoint_boundary r off hr h
  have : b = true := h2.2 hb
  subst this
  simp [Rope.atOrNextCodepointBoundary, h1]

/-- **C52.** `cursor.iter::<LinesMetric>()` gives, in increasing order, all starts
of lines after the position of the cursor, each once. -/
theorem C52_iter_lines (r : Rope) (p : Nat) (hr : r.Balanced) (hp : p ≤ r.text.length) :
    ∃ l, ((Cursor.new r p).bind (Cursor.iterAll linesMetric (r.text.length - p + 1))) = some l ∧ l.Pairwise (· < ·) ∧
      ∀ k, k ∈ l ↔ p < k ∧ k ≤ r.text.length ∧ LineBoundary r.text k := by
  obtain ⟨c, pre, l, post, h1, h2, h3, h4⟩ := Cursor.new_spec hr hp
  obtain ⟨l, g1, g2, g3⟩ := Cursor.iterAll_spec finds_lines rfl (r := r) (r.text.length - p + 1) (c := c) (p := some p) ⟨h3, h4, pre, l, post, h2⟩
    (by simp; omega)
  refine ⟨l, by rw [h1, Option.bind_some, g1], g2, ?_⟩
  simpa using g3

theorem example_newlines (a b m : Nat) :
    (List.replicate a 97 ++ [10] ++ ([0xc3, 0xa9] ++ List.replicate b 98 ++ [10]) : List UInt8)[m]? = some newline ↔ m = a ∨ m = a + b + 3 := by
  have n1 : (97 : UInt8) ≠ newline := by decide
  have n2 : (98 : UInt8) ≠ newline := by decide
  by_cases h1 : m < a
  · rw [List.append_assoc, List.getElem?_append_left (by simp; omega), List.getElem?_replicate]
    simp [n1]; omega
  · by_cases h2 : m = a
    · subst h2
      rw [List.append_assoc, List.getElem?_append_right (by simp)]
      simp [newline]
    · rw [List.getElem?_append_right (by simp; omega)]
      simp only [List.length_append, List.length_replicate, List.length_cons, List.length_nil, Nat.zero_add]
      obtain ⟨j, rfl⟩ : ∃ j, m = j + (a + 1) := ⟨m - (a + 1), by omega⟩
      rw [Nat.add_sub_cancel, List.append_assoc]
      match j with
      | 0 => simp [newline]; omega
      | 1 => simp [newline]; omega
      | j + 2 =>
        simp only [List.cons_append, List.nil_append, List.getElem?_cons_succ]
        by_cases h3 : j < b
        · rw [List.getElem?_append_left (by simp; omega), List.getElem?_replicate]
          simp [n2]; omega
        · rw [List.getElem?_append_right (by simp; omega), List.length_replicate]
          by_cases h4 : j = b
          · subst h4; simp [newline]; omega
          · rw [List.getElem?_eq_none (by simp; omega)]
            simp; omega

theorem exampleRope_lines (k : Nat) : LineBoundary exampleRope.text k ↔ k = 600 ∨ k = 1200 := by
  rw [exampleRope_text, LineBoundary, example_newlines]
  omega

example : CursorTrace exampleRope.text (some 700) [.prev .lines, .atOrNext .lines, .next .lines, .next .lines, .set 601, .isBoundary .lines]
    [.place (some 600), .place (some 600), .place (some 1200), .place none, .done, .flag false] := by
  have hlen : exampleRope.text.length = 1200 := by rw [exampleRope_text]; decide +kernel
  have hB : (RopeMetric.lines).Boundary exampleRope.text = LineBoundary exampleRope.text := rfl
  refine .cons (.prev (r := some 600) ⟨by omega, ?_, ?_⟩) (.cons (.atOrNext (.inl rfl) ⟨by omega, by omega, ?_, ?_⟩)
    (.cons (.next (r := some 1200) (.inl rfl) ⟨by omega, by omega, ?_, ?_⟩) (.cons (.next (r := none) (.inl rfl) ?_)
      (.cons (.set (by omega)) (.cons (.isBoundary ?_) .nil)))))
  all_goals (try intro k)
  all_goals simp only [hB, exampleRope_lines]
  all_goals first | omega | simp

end Xi
