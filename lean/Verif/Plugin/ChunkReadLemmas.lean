import Verif.Plugin.ChunkCacheLemmas

/-! # Reading through the chunk cache -/

namespace Xi

namespace Plugin

/-! ## More about lines -/

theorem lineBegin_newline (s : List UInt8) (n : Nat) : lineBegin (newline :: s) (n + 1) = lineBegin s n + 1 := by
  have e : (0 :: afterNewlines (newline :: s))[n + 1]? = (((0 :: afterNewlines s).map (· + 1))[n]?) := by
    rw [List.getElem?_cons_succ]; simp [afterNewlines]
  rw [lineBegin, e, List.getElem?_map, lineBegin]
  cases (0 :: afterNewlines s)[n]? <;> simp

theorem lineBegin_other {x : UInt8} (h : x ≠ newline) (s : List UInt8) (n : Nat) : lineBegin (x :: s) (n + 1) = lineBegin s (n + 1) + 1 := by
  rw [lineBegin, lineBegin]
  simp only [afterNewlines, if_neg h, List.nil_append, List.getElem?_cons_succ, List.getElem?_map]
  cases (afterNewlines s)[n]? <;> simp

theorem count_before_line : ∀ {t : List UInt8} {n : Nat}, n ≤ t.count newline → (t.take (lineBegin t n)).count newline = n
  | t, 0, _ => by simp [lineBegin_zero]
  | [], n + 1, h => by simp at h
  | x :: s, n + 1, h => by
    by_cases hx : x = newline
    · subst hx
      rw [lineBegin_newline, List.take_succ_cons, List.count_cons_self, count_before_line]
      simpa [List.count_cons] using h
    · rw [lineBegin_other hx, List.take_succ_cons, List.count_cons_of_ne (by simpa using hx), count_before_line]
      rwa [List.count_cons_of_ne (by simpa using hx)] at h

theorem lineBegin_left {a b : List UInt8} {n : Nat} (h : n ≤ a.count newline) : lineBegin (a ++ b) n ≤ a.length := by
  have : (0 :: afterNewlines (a ++ b))[n]? = (0 :: afterNewlines a)[n]? := by
    rw [afterNewlines_append, ← List.cons_append, List.getElem?_append_left (by rw [List.length_cons, afterNewlines_length]; omega)]
  have h2 : lineBegin (a ++ b) n = lineBegin a n := by
    rw [lineBegin, this, lineBegin, List.getElem?_eq_getElem (by rw [List.length_cons, afterNewlines_length]; omega)]
    rfl
  rw [h2]
  exact lineBegin_le a n

theorem lineBegin_right {a b : List UInt8} {n : Nat} (h : a.count newline < n) : a.length ≤ lineBegin (a ++ b) n := by
  obtain ⟨k, rfl⟩ : ∃ k, n = k + 1 := ⟨n - 1, by omega⟩
  rw [lineBegin, List.getElem?_cons_succ, afterNewlines_append, List.getElem?_append_right (by rw [afterNewlines_length]; omega), List.getElem?_map]
  cases (afterNewlines b)[k - (afterNewlines a).length]? <;> simp

theorem lineBegin_mono {t : List UInt8} {n m : Nat} (h : n ≤ m) : lineBegin t n ≤ lineBegin t m := by
  rcases Nat.lt_or_ge (t.count newline) m with hm | hm
  · rw [lineBegin_end hm]; exact lineBegin_le _ _
  · have h1 := count_before_line hm
    have h2 := lineBegin_left (a := t.take (lineBegin t m)) (b := t.drop (lineBegin t m)) (n := n) (by omega)
    rw [List.take_append_drop, List.length_take] at h2
    omega

/-! ## The answers of the core -/

/-- A right answer: a chunk `C` that starts at `o`. -/
structure Good (t : List UInt8) (o : Nat) (d : GetData) (A B : List UInt8) : Prop where
  text : t = A ++ d.chunk ++ B
  len : A.length = o
  ua : Utf8 A
  uc : Utf8 d.chunk
  ub : Utf8 B
  offset : d.offset = o
  firstLine : d.firstLine = A.count newline
  firstLineOffset : d.firstLineOffset = sinceNewline A
  reach : ∀ k, o ≤ k → k < t.length → (∀ j, o < j → j ≤ k → ¬ CharBoundary t j) → k < o + d.chunk.length

theorem pluginGetData_from {r : Rope} (hr : r.Balanced) {start size o : Nat} {unit : TextUnit} (hs : 4 ≤ size)
    (h : unit.resolveOffset r start = some (some o)) (ho : CharBoundary r.text o) :
    ∃ d A B, pluginGetData r start unit size = some (some d) ∧ Good r.text o d A B := by
  obtain ⟨A, C, B, h1, h2, h3, h4, h5, h6, h7⟩ := answer_at hr ho hs
  refine ⟨⟨C, o, A.count newline, sinceNewline A⟩, A, B, ?_, ⟨h1, h2, h3, h4, h5, rfl, rfl, rfl, h6⟩⟩
  rw [pluginGetData, h]
  exact h7

theorem pluginGetData_utf8 {r : Rope} (hr : r.Balanced) {start size : Nat} (hs : 4 ≤ size) (h : start ≤ r.text.length) :
    ∃ o d A B, pluginGetData r start .utf8 size = some (some d) ∧ Good r.text o d A B ∧ o ≤ start ∧ (∀ j, o < j → j ≤ start → ¬ CharBoundary r.text j) := by
  obtain ⟨p, h1, h2⟩ := C52_at_or_prev_codepoint r start hr h
  have hu := Rope.text_utf8 hr
  cases p with
  | none => exact absurd ((boundary_iff_spec hu).1 boundary_zero) (h2 0 (by omega))
  | some o =>
    obtain ⟨d, A, B, h3, h4⟩ := pluginGetData_from (start := start) (unit := .utf8) hr hs
      (by rw [TextUnit.resolveOffset, Rope.len_eq hr, if_neg (by omega), h1]) h2.2.1
    exact ⟨o, d, A, B, h3, h4, by have := h2.1; omega, fun j j1 j2 => h2.2.2 j j1 (by omega)⟩

theorem pluginGetData_line {r : Rope} (hr : r.Balanced) {n size : Nat} (hs : 4 ≤ size) (h : n ≤ r.text.count newline + 1) :
    ∃ d A B, pluginGetData r n .line size = some (some d) ∧ Good r.text (lineBegin r.text n) d A B :=
  pluginGetData_from hr hs (by
    rw [TextUnit.resolveOffset, Rope.measure_lines hr, if_neg (by omega), offsetOfLine_begin hr h]
    rfl) (boundary_lineBegin (Rope.text_utf8 hr) n)

theorem Good.held {c : ChunkCache} {t A B : List UInt8} {o : Nat} {d : GetData} (h : Good t o d A B) (h1 : c.bufSize = t.length)
    (h2 : c.numLines = t.count newline + 1) : Held (c.resetChunk d) A B := by
  have := resetChunk_held h.text h.len h.ua h.uc h.ub h1 h2
  rw [← h.offset, ← h.firstLine, ← h.firstLineOffset] at this
  exact this

theorem ReadOk.of_rev {α : Type} {source : Source} {size : Nat} {r : Rope} {c c1 : ChunkCache} {res : Option (ChunkCache × Option α)} {v : Option α}
    (h : ReadOk source size r c1 res v) (e : c1.rev = c.rev) : ReadOk source size r c res v := by
  obtain ⟨c', x, h1, h2, h3⟩ := h
  exact ⟨c', x, h1, ⟨h2.coh, by rw [h2.rev, e]⟩, by rw [← e]; exact h3⟩

theorem refetch_spec {source : Source} {size start o : Nat} {unit : TextUnit} {r : Rope} {c : ChunkCache} {d : GetData} {A B : List UInt8}
    (h : Reading source size r c.rev) (hc : Coherent c r.text) (hd : pluginGetData r start unit size = some (some d)) (hg : Good r.text o d A B) :
    (ChunkCache.refetch source size c start unit = some (c, false) ∧ ¬ Answers source size c.rev r) ∨
    (ChunkCache.refetch source size c start unit = some (c.resetChunk d, true) ∧ Held (c.resetChunk d) A B) := by
  rcases h.serves start unit with e | e
  · right
    rw [ChunkCache.refetch, e, hd]
    exact ⟨rfl, hg.held hc.bufSize hc.numLines⟩
  · left
    rw [ChunkCache.refetch, e]
    refine ⟨rfl, fun ha => ?_⟩
    have := ha start unit
    rw [e, hd] at this
    cases this

theorem held_len {c : ChunkCache} {A B t : List UInt8} (hh : Held c A B) (ht : t = A ++ c.contents ++ B) :
    t.length = c.offset + c.contents.length + B.length := by
  rw [ht, hh.offset]; simp; omega

/-- Fetching more when there is more: the chunk grows. -/
theorem fetchMore_spec {source : Source} {size : Nat} {r : Rope} {c : ChunkCache} {A B : List UInt8}
    (h : Reading source size r c.rev) (hh : Held c A B) (ht : r.text = A ++ c.contents ++ B) :
    (ChunkCache.fetchMore source size c = some (c, false) ∧ ¬ Answers source size c.rev r) ∨
    ∃ c' B1 B2, ChunkCache.fetchMore source size c = some (c', true) ∧ c'.contents = c.contents ++ B1 ∧ B = B1 ++ B2 ∧ Held c' A B2 ∧
      c'.rev = c.rev ∧ (B ≠ [] → B1 ≠ []) := by
  have hl := held_len hh ht
  have hub : Utf8 r.text := Rope.text_utf8 h.bal
  have hb : CharBoundary r.text (c.offset + c.contents.length) := (hh.coherent ht).stop
  obtain ⟨o, d, A1, B1, h1, h2, h3, h4⟩ := pluginGetData_utf8 (start := c.offset + c.contents.length) h.bal h.big (by omega)
  have ho : o = c.offset + c.contents.length := by
    rcases Nat.lt_or_ge o (c.offset + c.contents.length) with hlt | hge
    · exact absurd hb (h4 _ hlt (Nat.le_refl _))
    · omega
  have hA : A1 = A ++ c.contents := by
    have := h2.text
    rw [ht, List.append_assoc A1] at this
    exact (List.append_inj_left this (by rw [h2.len, ho, List.length_append, hh.offset])).symm
  have hB : B = d.chunk ++ B1 := by
    have := h2.text
    rw [ht, hA, List.append_assoc (A ++ c.contents)] at this
    exact List.append_cancel_left this
  rcases h.serves (c.offset + c.contents.length) .utf8 with e | e
  · right
    refine ⟨c.appendChunk d, d.chunk, B1, by rw [ChunkCache.fetchMore, e, h1]; rfl, rfl, hB, ?_, rfl, fun hne hz => ?_⟩
    · rw [hB] at hh
      obtain ⟨ch, a, b, f⟩ := d
      exact appendChunk_held hh h2.uc h2.ub
    · have hp : 0 < B.length := List.length_pos_iff.2 hne
      have := h2.reach o (Nat.le_refl _) (by omega) (by intros; omega)
      rw [hz] at this
      simp at this
  · left
    rw [ChunkCache.fetchMore, e]
    refine ⟨rfl, fun ha => ?_⟩
    have := ha (c.offset + c.contents.length) .utf8
    rw [e, h1] at this
    cases this

theorem dropTo_spec {c : ChunkCache} {A B : List UInt8} {s : Nat} (hh : Held c A B) (hs : CharBoundary c.contents s) :
    ∃ c', c.dropTo s = some c' ∧ c'.contents = c.contents.drop s ∧ Held c' (A ++ c.contents.take s) B ∧ c'.rev = c.rev := by
  rw [ChunkCache.dropTo]
  split
  · have hb := (boundary_iff hh.uc).1 ((boundary_iff_spec hh.uc).2 hs)
    have hl : (c.contents.take s).length = s := by rw [List.length_take]; have := boundary_le hs; omega
    obtain ⟨c', h1, h2, h3, h4, -, -⟩ := clearUpTo_spec hh (List.take_append_drop s c.contents).symm hb.2.1 hb.2.2
    rw [hl] at h1
    exact ⟨c', h1, h2, h3, h4⟩
  · rename_i h
    have h : s = 0 := by omega
    subst h
    exact ⟨c, rfl, by simp, by simpa using hh, rfl⟩

theorem inner_boundary {c : ChunkCache} {A B t : List UInt8} {k : Nat} (hh : Held c A B) (ht : t = A ++ c.contents ++ B) (hk : k ≤ c.contents.length) :
    CharBoundary t (c.offset + k) ↔ CharBoundary c.contents k := by
  rw [ht, hh.offset, List.append_assoc]
  exact charBoundary_inner hh.ua hh.uc hh.ub hk

theorem slice_inner {c : ChunkCache} {A B t : List UInt8} {s e : Nat} (hh : Held c A B) (ht : t = A ++ c.contents ++ B) (hse : s ≤ e) (he : e ≤ c.contents.length)
    (h1 : CharBoundary t (c.offset + s)) (h2 : CharBoundary t (c.offset + e)) :
    strSlice c.contents s e = some (part t (c.offset + s) (c.offset + e)) := by
  rw [strSlice, if_pos ⟨hse, (boundary_iff_spec hh.uc).2 ((inner_boundary hh ht (by omega)).1 h1), (boundary_iff_spec hh.uc).2 ((inner_boundary hh ht he).1 h2)⟩,
    part, ht, hh.offset, List.append_assoc, List.take_length_add_append, List.drop_length_add_append, List.take_append_of_le_length he]

/-! ## Lines -/

theorem lineLoop_spec {source : Source} {size n : Nat} {r : Rope} {rev : Nat} (h : Reading source size r rev) (hn : n ≤ r.text.count newline) :
    ∀ (fuel : Nat) {c : ChunkCache} {A B : List UInt8} {s : Nat}, c.rev = rev → Held c A B → r.text = A ++ c.contents ++ B →
      lineBegin r.text n = c.offset + s → s ≤ c.contents.length → A.count newline ≤ n → B.length + 1 ≤ fuel →
      ReadOk source size r c (ChunkCache.lineLoop source size n fuel c s) (some (part r.text (lineBegin r.text n) (lineBegin r.text (n + 1))))
  | 0, _, _, _, _, _, _, _, _, _, _, hf => by omega
  | fuel + 1, c, A, B, s, hrev, hh, ht, hs, hsc, hA, hf => by
    have hu := Rope.text_utf8 h.bal
    have hm := lineBegin_mono (t := r.text) (n := n) (m := n + 1) (by omega)
    have hlen := held_len hh ht
    have hbs := boundary_lineBegin hu n
    rw [hs] at hbs
    rcases cachedOffset_spec hh (n + 1) with ⟨h1, h2, h3⟩ | ⟨h1, h2⟩
    · rw [← ht] at h3
      have hend : lineBegin r.text (n + 1) ≤ c.offset + c.contents.length := by
        rcases h2 with h2 | ⟨_, rfl⟩
        · have := lineBegin_left (a := A ++ c.contents) (b := B) (n := n + 1) (by rw [List.count_append]; exact h2)
          rw [← ht, List.length_append, ← hh.offset] at this
          exact this
        · have := lineBegin_le r.text (n + 1)
          simp at hlen
          omega
      obtain ⟨e, he⟩ : ∃ e, lineBegin r.text (n + 1) = c.offset + e := ⟨lineBegin r.text (n + 1) - c.offset, by omega⟩
      have hbe := boundary_lineBegin hu (n + 1)
      rw [he] at hbe
      refine ⟨c, _, ?_, ⟨hh.coherent ht, rfl⟩, .inl rfl⟩
      rw [ChunkCache.lineLoop]
      simp only [h3, he, checkedSub_add, Option.bind_eq_bind, Option.bind_some, slice_inner hh ht (by omega) (by omega) hbs hbe, hs]
      rfl
    · have hB : B ≠ [] := by
        rintro rfl
        have := hh.numLines
        rw [← ht] at this
        rw [ht] at hn
        simp only [List.append_nil, List.count_append] at hn
        rcases h1 with h1 | ⟨h1, h1'⟩
        · omega
        · apply h1'
          refine ⟨?_, rfl⟩
          rw [this, ht]
          simp only [List.append_nil, List.count_append]
          omega
      obtain ⟨c1, g1, g2, g3, g4⟩ := dropTo_spec hh ((inner_boundary hh ht hsc).1 hbs)
      have ht1 : r.text = A ++ c.contents.take s ++ c1.contents ++ B := by
        rw [g2, List.append_assoc A, List.take_append_drop]; exact ht
      have hoff : c1.offset = c.offset + s := by
        rw [g3.offset, List.length_append, List.length_take, hh.offset]; omega
      rw [ChunkCache.lineLoop]
      simp only [h2, g1, Option.bind_eq_bind, Option.bind_some]
      have hr1 : Reading source size r c1.rev := by rw [g4, hrev]; exact h
      rcases fetchMore_spec hr1 g3 ht1 with ⟨k1, k2⟩ | ⟨c2, B1, B2, k1, k2, k3, k4, k5, k6⟩
      · simp only [k1, Option.bind_some]
        exact ⟨c1, none, rfl, ⟨g3.coherent ht1, g4⟩, .inr ⟨rfl, by rw [← g4]; exact k2⟩⟩
      · simp only [k1, Option.bind_some]
        have hp := List.length_pos_iff.2 (k6 hB)
        have hc2 : c2.offset = c1.offset := by rw [k4.offset, g3.offset]
        have hcnt : (A ++ c.contents.take s).count newline ≤ n := by
          rw [← count_before_line hn, hs]
          have e : r.text.take (c.offset + s) = A ++ c.contents.take s := by
            rw [ht, hh.offset, List.append_assoc, List.take_length_add_append, List.take_append_of_le_length hsc]
          rw [e]; exact Nat.le_refl _
        obtain ⟨c', x, w1, w2, w3⟩ := lineLoop_spec h hn fuel (c := c2) (s := 0) (by rw [k5, g4, hrev]) k4 (by rw [k2, ht1, k3]; simp)
          (by rw [hs, hc2, hoff]; rfl) (Nat.zero_le _) hcnt (by rw [k3, List.length_append] at hf; omega)
        exact ⟨c', x, w1, ⟨w2.coh, by rw [w2.rev, k5, g4]⟩, by rw [k5, g4] at w3; exact w3⟩

/-- The line starts in the chunk. -/
theorem lineFrom_spec {source : Source} {size n : Nat} {r : Rope} {c : ChunkCache} {A B : List UInt8} (h : Reading source size r c.rev)
    (hn : n ≤ r.text.count newline) (hh : Held c A B) (ht : r.text = A ++ c.contents ++ B) (h1 : A.count newline ≤ n)
    (h2 : n ≤ A.count newline + c.contents.count newline) (h3 : n = A.count newline → sinceNewline A = 0) :
    ReadOk source size r c (c.lineFrom source size n) (some (part r.text (lineBegin r.text n) (lineBegin r.text (n + 1)))) := by
  have hge : c.offset ≤ lineBegin r.text n := by
    rw [ht, hh.offset]
    rcases Nat.eq_or_lt_of_le h1 with e | e
    · rw [← e, List.append_assoc, lineBegin_tail, h3 e.symm]; exact Nat.le_refl _
    · rw [List.append_assoc]; exact lineBegin_right e
  have hle : lineBegin r.text n ≤ c.offset + c.contents.length := by
    have := lineBegin_left (a := A ++ c.contents) (b := B) (n := n) (by rw [List.count_append]; exact h2)
    rw [← ht, List.length_append, ← hh.offset] at this
    exact this
  obtain ⟨s, hs⟩ : ∃ s, lineBegin r.text n = c.offset + s := ⟨lineBegin r.text n - c.offset, by omega⟩
  have hlen := held_len hh ht
  have hbuf := (hh.coherent ht).bufSize
  rcases cachedOffset_spec hh n with ⟨_, _, g3⟩ | ⟨g1, _⟩
  · rw [← ht] at g3
    rw [ChunkCache.lineFrom]
    simp only [g3, hs, checkedSub_add, Option.bind_eq_bind, Option.bind_some]
    rw [← hs]
    exact lineLoop_spec h hn _ rfl hh ht hs (by omega) h1 (by omega)
  · omega

theorem getLine_spec {source : Source} {size n : Nat} {r : Rope} {c : ChunkCache} (h : Reading source size r c.rev) (hc : Coherent c r.text)
    (hn : n < r.text.count newline + 1) :
    ReadOk source size r c (c.getLine source size n) (some (part r.text (lineBegin r.text n) (lineBegin r.text (n + 1)))) := by
  rw [ChunkCache.getLine, hc.numLines, if_neg (by omega)]
  split
  · obtain ⟨d, A, B, h1, h2⟩ := pluginGetData_line h.bal h.big (n := n) (by omega)
    rcases refetch_spec h hc h1 h2 with ⟨e1, e2⟩ | ⟨e1, e2⟩
    · rw [e1]
      exact ⟨c, none, rfl, ⟨hc, rfl⟩, .inr ⟨rfl, e2⟩⟩
    · rw [e1]
      simp only [Option.bind_eq_bind, Option.bind_some]
      have ht : r.text = A ++ (c.resetChunk d).contents ++ B := h2.text
      have hA : A = r.text.take (lineBegin r.text n) := by rw [ht, List.append_assoc, List.take_left']; rw [← List.append_assoc, ← ht]; exact h2.len
      have hcnt : A.count newline = n := by rw [hA]; exact count_before_line (by omega)
      have hs : sinceNewline A = 0 := by
        have h3 := lineBegin_tail A ((c.resetChunk d).contents ++ B)
        rw [← List.append_assoc, ← ht, hcnt, ← h2.len] at h3
        have := sinceNewline_le A
        omega
      exact ReadOk.of_rev (e := rfl) <| lineFrom_spec (c := c.resetChunk d) (A := A) (n := n) h (by omega) e2 ht (by omega) (by omega) (fun _ => hs)
  · rename_i hm
    obtain ⟨A, B, ht, hh⟩ := hc.held
    simp only [ChunkCache.misses, Bool.not_eq_true, Bool.or_eq_false_iff, Bool.and_eq_false_iff, decide_eq_false_iff_not, hh.firstLine, hh.firstLineOffset,
      hh.lineOffsets, afterNewlines_length] at hm
    obtain ⟨⟨⟨-, h1⟩, h2⟩, h3⟩ := hm
    exact lineFrom_spec (A := A) h (by omega) hh ht (by omega) (by omega) (fun e => by omega)

/-! ## Regions -/

theorem regionLoop_spec {source : Source} {size start stop : Nat} {r : Rope} {rev : Nat} (h : Reading source size r rev)
    (hle : start ≤ stop) (h1 : CharBoundary r.text start) (h2 : CharBoundary r.text stop) :
    ∀ (fuel : Nat) {c : ChunkCache} {A B : List UInt8}, c.rev = rev → Held c A B → r.text = A ++ c.contents ++ B →
      c.offset ≤ start → start ≤ c.offset + c.contents.length → B.length + 1 ≤ fuel →
      ReadOk source size r c (ChunkCache.regionLoop source size start stop fuel c) (some (part r.text start stop))
  | 0, _, _, _, _, _, _, _, _, hf => by omega
  | fuel + 1, c, A, B, hrev, hh, ht, hs1, hs2, hf => by
    have hlen := held_len hh ht
    have hstop := boundary_le h2
    obtain ⟨s, rfl⟩ : ∃ s, start = c.offset + s := ⟨start - c.offset, by omega⟩
    obtain ⟨e, rfl⟩ : ∃ e, stop = c.offset + e := ⟨stop - c.offset, by omega⟩
    rw [ChunkCache.regionLoop, ChunkCache.regionStep]
    simp only [checkedSub_add, Option.bind_eq_bind, Option.bind_some]
    by_cases he : e ≤ c.contents.length
    · rw [if_pos he, slice_inner hh ht (by omega) he h1 h2]
      exact ⟨c, _, rfl, ⟨hh.coherent ht, rfl⟩, .inl rfl⟩
    · rw [if_neg he]
      have hB : B ≠ [] := by rintro rfl; simp at hlen; omega
      obtain ⟨c1, g1, g2, g3, g4⟩ := dropTo_spec hh ((inner_boundary hh ht (by omega)).1 h1)
      have ht1 : r.text = A ++ c.contents.take s ++ c1.contents ++ B := by
        rw [g2, List.append_assoc A, List.take_append_drop]; exact ht
      have hoff : c1.offset = c.offset + s := by
        rw [g3.offset, List.length_append, List.length_take, hh.offset]; omega
      have hr1 : Reading source size r c1.rev := by rw [g4, hrev]; exact h
      simp only [g1, Option.bind_some]
      rcases fetchMore_spec hr1 g3 ht1 with ⟨k1, k2⟩ | ⟨c2, B1, B2, k1, k2, k3, k4, k5, k6⟩
      · simp only [k1, Option.bind_some]
        exact ⟨c1, none, rfl, ⟨g3.coherent ht1, g4⟩, .inr ⟨rfl, by rw [← g4]; exact k2⟩⟩
      · simp only [k1, Option.bind_some]
        have hp := List.length_pos_iff.2 (k6 hB)
        have hc2 : c2.offset = c1.offset := by rw [k4.offset, g3.offset]
        obtain ⟨c', x, w1, w2, w3⟩ := regionLoop_spec h hle h1 h2 fuel (c := c2) (by rw [k5, g4, hrev]) k4 (by rw [k2, ht1, k3]; simp)
          (by omega) (by omega) (by rw [k3, List.length_append] at hf; omega)
        exact ⟨c', x, w1, ⟨w2.coh, by rw [w2.rev, k5, g4]⟩, by rw [k5, g4] at w3; exact w3⟩

theorem getRegion_spec {source : Source} {size : Nat} {r : Rope} {c : ChunkCache} {interval : Bounds} {iv : Interval} (h : Reading source size r c.rev)
    (hc : Coherent c r.text) (hi : interval.intoInterval c.bufSize = some iv) (hle : iv.start ≤ iv.stop) (h1 : CharBoundary r.text iv.start) (h2 : CharBoundary r.text iv.stop) :
    ReadOk source size r c (c.getRegion source size interval) (some (part r.text iv.start iv.stop)) := by
  rw [ChunkCache.getRegion, hi]
  simp only [Option.bind_eq_bind, Option.bind_some]
  split
  · obtain ⟨o, d, A, B, g1, g2, g3, g4⟩ := pluginGetData_utf8 h.bal h.big (start := iv.start) (boundary_le h1)
    have ho : o = iv.start := by
      rcases Nat.lt_or_ge o iv.start with hlt | hge
      · exact absurd h1 (g4 _ hlt (Nat.le_refl _))
      · omega
    rcases refetch_spec h hc g1 g2 with ⟨e1, e2⟩ | ⟨e1, e2⟩
    · rw [e1]
      exact ⟨c, none, rfl, ⟨hc, rfl⟩, .inr ⟨rfl, e2⟩⟩
    · rw [e1]
      simp only [Option.bind_some]
      have ht : r.text = A ++ (c.resetChunk d).contents ++ B := g2.text
      have hlen := held_len e2 ht
      have hbuf := (e2.coherent ht).bufSize
      have hoff : (c.resetChunk d).offset = iv.start := by rw [e2.offset, g2.len, ho]
      exact ReadOk.of_rev (e := rfl) <| regionLoop_spec (c := c.resetChunk d) (A := A) h hle h1 h2 ((c.resetChunk d).bufSize + 2) rfl e2 ht (by omega) (by omega) (by omega)
  · rename_i hm
    obtain ⟨A, B, ht, hh⟩ := hc.held
    have hlen := held_len hh ht
    have hbuf := hc.bufSize
    simp only [not_or] at hm
    exact regionLoop_spec (c := c) (A := A) h hle h1 h2 _ rfl hh ht (by omega) (by omega) (by omega)

/-! ## The document -/

theorem documentLoop_spec {source : Source} {size : Nat} {r : Rope} {rev : Nat} (h : Reading source size r rev) :
    ∀ (fuel : Nat) {c : ChunkCache} {cur : Nat}, c.rev = rev → Coherent c r.text → CharBoundary r.text cur → r.text.length - cur < fuel →
      ReadOk source size r c (ChunkCache.documentLoop source size fuel c cur (r.text.take cur)) (some r.text)
  | 0, _, _, _, _, _, hf => by omega
  | fuel + 1, c, cur, hrev, hc, hb, hf => by
    have hle := boundary_le hb
    rw [ChunkCache.documentLoop, hc.bufSize]
    by_cases hlt : ¬ cur < r.text.length
    · rw [if_neg hlt]
      have : r.text.take cur = r.text := List.take_of_length_le (by omega)
      exact ⟨c, _, rfl, ⟨hc, rfl⟩, .inl (by rw [this])⟩
    · rw [if_pos (Decidable.not_not.1 hlt)]
      have hlt := Decidable.not_not.1 hlt
      have key : (ChunkCache.documentFetch source size c cur = some (c, false) ∧ ¬ Answers source size c.rev r) ∨
          ∃ c1 A B, ChunkCache.documentFetch source size c cur = some (c1, true) ∧ Held c1 A B ∧ r.text = A ++ c1.contents ++ B ∧ c1.offset = cur ∧
            c1.contents ≠ [] ∧ c1.rev = c.rev := by
        rw [ChunkCache.documentFetch]
        split
        · obtain ⟨o, d, A, B, g1, g2, g3, g4⟩ := pluginGetData_utf8 h.bal h.big (start := cur) hle
          have ho : o = cur := by
            rcases Nat.lt_or_ge o cur with hlt | hge
            · exact absurd hb (g4 _ hlt (Nat.le_refl _))
            · omega
          rcases refetch_spec (by rw [hrev]; exact h) hc g1 g2 with ⟨e1, e2⟩ | ⟨e1, e2⟩
          · exact .inl ⟨e1, e2⟩
          · refine .inr ⟨c.resetChunk d, A, B, e1, e2, g2.text, by rw [e2.offset, g2.len, ho], fun hz => ?_, rfl⟩
            have := g2.reach o (Nat.le_refl _) (by omega) (by intros; omega)
            have hz : d.chunk = [] := hz
            rw [hz] at this
            simp at this
        · rename_i hm
          simp only [not_or] at hm
          obtain ⟨A, B, ht, hh⟩ := hc.held
          exact .inr ⟨c, A, B, rfl, hh, ht, by omega, by simpa using hm.1, rfl⟩
      rcases key with ⟨k1, k2⟩ | ⟨c1, A, B, k1, k2, k3, k4, k5, k6⟩
      · simp only [k1, Option.bind_eq_bind, Option.bind_some]
        exact ⟨c, none, rfl, ⟨hc, rfl⟩, .inr ⟨rfl, k2⟩⟩
      · simp only [k1, Option.bind_eq_bind, Option.bind_some]
        have hp := List.length_pos_iff.2 k5
        have e : r.text.take cur ++ c1.contents = r.text.take (c1.offset + c1.contents.length) := by
          rw [← k4, k2.offset, k3, List.append_assoc, List.take_left', List.take_length_add_append, List.take_left']
          · rfl
          · rfl
        rw [e]
        obtain ⟨c', x, w1, w2, w3⟩ := documentLoop_spec h fuel (c := c1) (by rw [k6, hrev]) (k2.coherent k3) (k2.coherent k3).stop (by omega)
        exact ⟨c', x, w1, ⟨w2.coh, by rw [w2.rev, k6]⟩, by rw [k6] at w3; exact w3⟩

/-! ## Line numbers -/

theorem offsetOfLine_spec {source : Source} {size n : Nat} {r : Rope} {c : ChunkCache} (h : Reading source size r c.rev) (hc : Coherent c r.text)
    (hn : n ≤ r.text.count newline + 1) :
    ReadOk source size r c (c.offsetOfLine source size n) (some (lineBegin r.text n)) := by
  obtain ⟨A, B, ht, hh⟩ := hc.held
  rw [ChunkCache.offsetOfLine, ChunkCache.offsetOfLineFrom, hc.numLines, if_neg (by omega)]
  rcases cachedOffset_spec hh n with ⟨_, _, g3⟩ | ⟨_, g2⟩
  · rw [← ht] at g3
    simp only [g3, Option.bind_eq_bind, Option.bind_some]
    exact ⟨c, _, rfl, ⟨hc, rfl⟩, .inl rfl⟩
  · simp only [g2, Option.bind_eq_bind, Option.bind_some]
    obtain ⟨d, A1, B1, h1, h2⟩ := pluginGetData_line h.bal h.big (n := n) hn
    rcases refetch_spec h hc h1 h2 with ⟨e1, e2⟩ | ⟨e1, e2⟩
    · rw [e1]
      exact ⟨c, none, rfl, ⟨hc, rfl⟩, .inr ⟨rfl, e2⟩⟩
    · rw [e1]
      simp only [Option.bind_some]
      have ht1 : r.text = A1 ++ (c.resetChunk d).contents ++ B1 := h2.text
      have hA : A1 = r.text.take (lineBegin r.text n) := by rw [ht1, List.append_assoc, List.take_left']; rw [← List.append_assoc, ← ht1]; exact h2.len
      have hnum := (e2.coherent ht1).numLines
      rw [ChunkCache.offsetOfLineFrom, hnum, if_neg (by omega)]
      rcases cachedOffset_spec e2 n with ⟨_, _, g3⟩ | ⟨g4, _⟩
      · rw [← ht1] at g3
        simp only [g3, Option.bind_eq_bind, Option.bind_some]
        exact ⟨_, _, rfl, ⟨e2.coherent ht1, rfl⟩, .inl rfl⟩
      · exfalso
        rcases Nat.lt_or_ge (r.text.count newline) n with hgt | hle
        · have hlen := held_len e2 ht1
          have hl : A1.length = r.text.length := by rw [h2.len, lineBegin_end hgt]
          rw [e2.offset, hl] at hlen
          have hB : B1 = [] := List.eq_nil_of_length_eq_zero (by omega)
          have : A1.count newline ≤ r.text.count newline := by rw [hA]; exact (List.take_sublist _ _).count_le _
          rcases g4 with g4 | ⟨_, g4⟩
          · omega
          · exact g4 ⟨by omega, hB⟩
        · have hcnt : A1.count newline = n := by rw [hA]; exact count_before_line hle
          omega

theorem cachedLine_spec {c : ChunkCache} {A B t : List UInt8} {off : Nat} (hh : Held c A B) (ht : t = A ++ c.contents ++ B) (h1 : c.offset ≤ off)
    (h2 : off ≤ c.offset + c.contents.length) : c.cachedLineOfOffset off = some ((t.take off).count newline) := by
  obtain ⟨k, rfl⟩ : ∃ k, off = c.offset + k := ⟨off - c.offset, by omega⟩
  have e : t.take (c.offset + k) = A ++ c.contents.take k := by
    rw [ht, hh.offset, List.append_assoc, List.take_length_add_append, List.take_append_of_le_length (by omega)]
  have hl : (c.contents.take k).length = k := by rw [List.length_take]; omega
  rw [e, ChunkCache.cachedLineOfOffset, checkedSub_add, List.count_append, hh.lineOffsets, hh.firstLine]
  simp only [Option.bind_eq_bind, Option.bind_some]
  have hb := binSearch_newlines (c.contents.take k) (c.contents.drop k)
  rw [List.take_append_drop, hl] at hb
  rcases hb with ⟨a', ha, hb⟩ | ⟨_, hb⟩
  · rw [hb, ha]
    simp [List.count_append]
    omega
  · rw [hb]
    simp
    omega

theorem lineOfOffset_spec {source : Source} {size off : Nat} {r : Rope} {c : ChunkCache} (h : Reading source size r c.rev) (hc : Coherent c r.text)
    (hn : off ≤ r.text.length) :
    ReadOk source size r c (c.lineOfOffset source size off) (some ((r.text.take off).count newline)) := by
  rw [ChunkCache.lineOfOffset, hc.bufSize, if_neg (by omega)]
  split
  · obtain ⟨o, d, A, B, g1, g2, g3, g4⟩ := pluginGetData_utf8 h.bal h.big (start := off) hn
    rcases refetch_spec h hc g1 g2 with ⟨e1, e2⟩ | ⟨e1, e2⟩
    · rw [e1]
      exact ⟨c, none, rfl, ⟨hc, rfl⟩, .inr ⟨rfl, e2⟩⟩
    · rw [e1]
      have ht : r.text = A ++ (c.resetChunk d).contents ++ B := g2.text
      have hlen := held_len e2 ht
      have hoff : (c.resetChunk d).offset = o := by rw [e2.offset, g2.len]
      have hk : off ≤ (c.resetChunk d).offset + (c.resetChunk d).contents.length := by
        rcases Nat.lt_or_ge off r.text.length with hlt | hge
        · have := g2.reach off g3 hlt g4
          have hd : (c.resetChunk d).contents = d.chunk := rfl
          rw [hoff, hd]; omega
        · have : ¬ o < off := by
            intro hlt
            apply g4 off hlt (Nat.le_refl _)
            have : off = r.text.length := by omega
            rw [this]
            exact (boundary_iff_spec (Rope.text_utf8 h.bal)).1 boundary_length
          omega
      simp only [Option.bind_eq_bind, Option.bind_some, cachedLine_spec e2 ht (by omega) hk]
      exact ⟨_, _, rfl, ⟨e2.coherent ht, rfl⟩, .inl rfl⟩
  · rename_i hm
    simp only [not_or] at hm
    obtain ⟨A, B, ht, hh⟩ := hc.held
    simp only [Option.bind_eq_bind, Option.bind_some, cachedLine_spec (c := c) (off := off) hh ht (by omega) (by omega)]
    exact ⟨c, _, rfl, ⟨hc, rfl⟩, .inl rfl⟩

end Plugin

end Xi
