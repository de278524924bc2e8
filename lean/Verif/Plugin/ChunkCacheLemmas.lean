import Verif.Spec.ChunkCache
import Verif.Props.Rope
import Verif.Props.Cursor
import Verif.Props.Delta
import Verif.Core.LineOffsetLemmas
import Verif.Rope.PanicLemmas

/-! # Facts about the chunk cache -/

namespace Xi

namespace Plugin

/-! ## Newlines -/

theorem afterNewlines_append : ∀ (a b : List UInt8), afterNewlines (a ++ b) = afterNewlines a ++ (afterNewlines b).map (· + a.length)
  | [], b => by simp [afterNewlines]
  | x :: a, b => by
    simp only [List.cons_append, afterNewlines, afterNewlines_append a b, List.map_append, List.map_map, List.append_assoc, List.length_cons]
    congr 2

theorem afterNewlines_length : ∀ s : List UInt8, (afterNewlines s).length = s.count newline
  | [] => rfl
  | x :: s => by
    simp only [afterNewlines, List.length_append, List.length_map, afterNewlines_length s, List.count_cons]
    by_cases h : x = newline <;> simp [h] <;> omega

theorem afterNewlines_bounds : ∀ {s : List UInt8} {k : Nat}, k ∈ afterNewlines s → 0 < k ∧ k ≤ s.length
  | [], _, h => by simp [afterNewlines] at h
  | x :: s, k, h => by
    simp only [afterNewlines, List.mem_append, List.mem_map] at h
    simp only [List.length_cons]
    rcases h with h | ⟨j, h1, rfl⟩
    · split at h
      · simp only [List.mem_singleton] at h; omega
      · simp at h
    · have := afterNewlines_bounds h1
      omega

/-- The elements are the places after newlines. -/
theorem mem_afterNewlines : ∀ {s : List UInt8} {k : Nat}, k ∈ afterNewlines s ↔ 0 < k ∧ s[k - 1]? = some newline
  | [], k => by simp [afterNewlines]
  | x :: s, k => by
    simp only [afterNewlines, List.mem_append, List.mem_map]
    constructor
    · rintro (h | ⟨j, h1, rfl⟩)
      · split at h
        · rename_i hx
          simp only [List.mem_singleton] at h
          subst h; subst hx
          simp
        · simp at h
      · obtain ⟨h2, h3⟩ := mem_afterNewlines.1 h1
        refine ⟨by omega, ?_⟩
        obtain ⟨i, rfl⟩ : ∃ i, j = i + 1 := ⟨j - 1, by omega⟩
        simpa using h3
    · rintro ⟨h1, h2⟩
      obtain ⟨i, rfl⟩ : ∃ i, k = i + 1 := ⟨k - 1, by omega⟩
      cases i with
      | zero => left; simp at h2; simp [h2]
      | succ i => exact .inr ⟨i + 1, mem_afterNewlines.2 ⟨by omega, by simpa using h2⟩, rfl⟩

theorem afterNewlines_none {s : List UInt8} (h : newline ∉ s) : afterNewlines s = [] := by
  apply List.eq_nil_of_length_eq_zero
  rw [afterNewlines_length]
  exact List.count_eq_zero.2 h

theorem memchr_split : ∀ {s : List UInt8}, (memchr newline s = none ∧ newline ∉ s) ∨
    ∃ a b, s = a ++ newline :: b ∧ newline ∉ a ∧ memchr newline s = some a.length
  | [] => .inl ⟨rfl, by simp⟩
  | x :: s => by
    by_cases hx : x = newline
    · exact .inr ⟨[], s, by simp [hx], by simp, by simp [memchr, hx]⟩
    · rcases memchr_split (s := s) with ⟨h1, h2⟩ | ⟨a, b, h1, h2, h3⟩
      · exact .inl ⟨by simp [memchr, hx, h1], by simp [h2, Ne.symm hx]⟩
      · exact .inr ⟨x :: a, b, by simp [h1], by simp [h2, Ne.symm hx], by simp [memchr, hx, h3]⟩

theorem newlineOffsetsFrom_eq : ∀ (fuel : Nat) (s : List UInt8) (cur : Nat), s.length < fuel →
    newlineOffsetsFrom fuel s cur = (afterNewlines s).map (· + cur)
  | 0, _, _, h => by omega
  | fuel + 1, s, cur, h => by
    rw [newlineOffsetsFrom]
    rcases memchr_split (s := s) with ⟨h1, h2⟩ | ⟨a, b, h1, h2, h3⟩
    · simp [h1, afterNewlines_none h2]
    · simp only [h3]
      subst h1
      have hd : (a ++ newline :: b).drop (a.length + 1) = b := by
        rw [show a ++ newline :: b = (a ++ [newline]) ++ b by simp, List.drop_left' (by simp)]
      rw [hd, newlineOffsetsFrom_eq fuel b _ (by simp at h; omega), afterNewlines_append, afterNewlines_none h2]
      simp only [afterNewlines, if_true, List.nil_append, List.map_append, List.map_map, List.map_cons, List.map_nil, List.cons_append, List.singleton_append]
      congr 1
      · omega
      · apply List.map_congr_left
        intro k _
        simp only [Function.comp_apply]
        omega

theorem newlineOffsets_eq (s : List UInt8) : newlineOffsets s = afterNewlines s := by
  rw [newlineOffsets, newlineOffsetsFrom_eq _ _ _ (Nat.lt_succ_self _)]
  simp

theorem sinceNewline_none {a b : List UInt8} (h : newline ∉ b) : sinceNewline (a ++ b) = sinceNewline a + b.length := by
  rw [sinceNewline, List.reverse_append, List.takeWhile_append_of_pos]
  · simp [sinceNewline]; omega
  · intro x hx
    simp only [List.mem_reverse] at hx
    simp only [bne_iff_ne]
    rintro rfl
    exact h hx

theorem sinceNewline_last {a b : List UInt8} (h : newline ∉ b) : sinceNewline (a ++ newline :: b) = b.length := by
  rw [show a ++ newline :: b = (a ++ [newline]) ++ b by simp, sinceNewline_none h]
  simp [sinceNewline]

theorem sinceNewline_le (a : List UInt8) : sinceNewline a ≤ a.length := by
  have := (List.takeWhile_prefix (l := a.reverse) (fun x => x != newline)).length_le
  simpa [sinceNewline] using this

/-- Either there is no newline, or the text is split at the last. -/
theorem last_split : ∀ (s : List UInt8), newline ∉ s ∨ ∃ a b, s = a ++ newline :: b ∧ newline ∉ b
  | [] => .inl (by simp)
  | x :: s => by
    rcases last_split s with h | ⟨a, b, h1, h2⟩
    · by_cases hx : x = newline
      · exact .inr ⟨[], s, by simp [hx], h⟩
      · exact .inl (by simp [h, Ne.symm hx])
    · exact .inr ⟨x :: a, b, by simp [h1], h2⟩

/-! ## Searching -/

theorem binSearch_inl {l m : List Nat} {x : Nat} (h : ∀ y ∈ l, y < x) : binSearch (l ++ x :: m) x = .inl l.length := by
  have e : (l ++ x :: m).takeWhile (· < x) = l := by
    rw [List.takeWhile_append_of_pos (by simpa using h)]; simp
  simp [binSearch, e]

theorem binSearch_inr {l m : List Nat} {x : Nat} (h : ∀ y ∈ l, y < x) (h' : ∀ y ∈ m, x < y) : binSearch (l ++ m) x = .inr l.length := by
  have e : (l ++ m).takeWhile (· < x) = l := by
    rw [List.takeWhile_append_of_pos (by simpa using h)]
    cases m with
    | nil => simp
    | cons y m =>
      have := h' y (by simp)
      simp only [List.takeWhile_cons]
      rw [if_neg (by simp; omega)]
      simp
  simp only [binSearch, e]
  rw [if_neg]
  cases m with
  | nil => simp
  | cons y m =>
    have := h' y (by simp)
    simp; omega

/-- Looking up a place between `a` and `b` among the newlines. -/
theorem binSearch_newlines (a b : List UInt8) : (∃ a', a = a' ++ [newline] ∧ binSearch (afterNewlines (a ++ b)) a.length = .inl (a'.count newline)) ∨
    ((∀ a', a ≠ a' ++ [newline]) ∧ binSearch (afterNewlines (a ++ b)) a.length = .inr (a.count newline)) := by
  have hb : ∀ y ∈ (afterNewlines b).map (· + a.length), a.length < y := by
    intro y hy
    obtain ⟨k, h1, rfl⟩ := List.mem_map.1 hy
    have := afterNewlines_bounds h1
    omega
  rcases List.eq_nil_or_concat a with rfl | ⟨a', x, rfl⟩
  · right
    refine ⟨by simp, ?_⟩
    rw [afterNewlines_append]
    exact binSearch_inr (by simp [afterNewlines]) hb
  · have ha' : ∀ y ∈ afterNewlines a', y < (a' ++ [x]).length := by
      intro y hy
      have := afterNewlines_bounds hy
      simp; omega
    rw [List.concat_eq_append] at *
    by_cases hx : x = newline
    · left
      subst hx
      refine ⟨a', rfl, ?_⟩
      rw [afterNewlines_append, afterNewlines_append a']
      have e : (afterNewlines [newline]).map (· + a'.length) = [(a' ++ [newline]).length] := by
        simp [afterNewlines]; omega
      rw [e, List.append_assoc, List.singleton_append, binSearch_inl ha', afterNewlines_length]
    · right
      have hne : newline ∉ [x] := by simp [Ne.symm hx]
      refine ⟨fun c hc => ?_, ?_⟩
      · have := List.append_inj_right' hc rfl
        simp at this
        exact hx this
      · rw [afterNewlines_append, binSearch_inr _ hb, afterNewlines_length]
        rw [afterNewlines_append, afterNewlines_none hne]
        simpa using ha'

/-! ## Lines -/

theorem lineBegin_zero (t : List UInt8) : lineBegin t 0 = 0 := by simp [lineBegin]

theorem lineBegin_end {t : List UInt8} {n : Nat} (h : t.count newline < n) : lineBegin t n = t.length := by
  rw [lineBegin, List.getElem?_eq_none (by rw [List.length_cons, afterNewlines_length]; omega)]
  rfl

/-- The line that starts after the last newline of `a`. -/
theorem lineBegin_tail (a b : List UInt8) : lineBegin (a ++ b) (a.count newline) = a.length - sinceNewline a := by
  rcases last_split a with h | ⟨a1, a2, rfl, h⟩
  · have := sinceNewline_none (a := []) h
    simp only [List.nil_append] at this
    rw [this, List.count_eq_zero.2 h, lineBegin_zero]
    simp [sinceNewline]
  · rw [sinceNewline_last h]
    have hc : (a1 ++ newline :: a2).count newline = a1.count newline + 1 := by
      simp [List.count_append, List.count_cons, List.count_eq_zero.2 h]
    rw [hc, lineBegin, List.getElem?_cons_succ, show a1 ++ newline :: a2 ++ b = a1 ++ ([newline] ++ (a2 ++ b)) by simp,
      afterNewlines_append, List.getElem?_append_right (by rw [afterNewlines_length]; exact Nat.le_refl _), afterNewlines_length, Nat.sub_self, afterNewlines_append]
    simp [afterNewlines]
    omega

/-- A later line that starts inside `c`. -/
theorem lineBegin_inner {a c b : List UInt8} {k o : Nat} (h : (afterNewlines c)[k]? = some o) :
    lineBegin (a ++ c ++ b) (a.count newline + (k + 1)) = a.length + o := by
  have hk : k < (afterNewlines c).length := by
    rcases Nat.lt_or_ge k (afterNewlines c).length with h' | h'
    · exact h'
    · rw [List.getElem?_eq_none h'] at h; simp at h
  rw [lineBegin, ← Nat.add_assoc, List.getElem?_cons_succ, afterNewlines_append, afterNewlines_append,
    List.getElem?_append_left (by rw [List.length_append, List.length_map, afterNewlines_length a]; omega),
    List.getElem?_append_right (by rw [afterNewlines_length]; omega), afterNewlines_length, Nat.add_sub_cancel_left, List.getElem?_map, h]
  simp
  omega

theorem lineBegin_le (t : List UInt8) (n : Nat) : lineBegin t n ≤ t.length := by
  rw [lineBegin]
  cases h : (0 :: afterNewlines t)[n]? with
  | none => exact Nat.le_refl _
  | some o =>
    have := List.mem_of_getElem? h
    rcases List.mem_cons.1 this with rfl | h'
    · exact Nat.zero_le _
    · exact (afterNewlines_bounds h').2

theorem boundary_lineBegin {t : List UInt8} (ht : Utf8 t) (n : Nat) : CharBoundary t (lineBegin t n) := by
  rw [← boundary_iff_spec ht, lineBegin]
  cases h : (0 :: afterNewlines t)[n]? with
  | none => exact boundary_length
  | some o =>
    have := List.mem_of_getElem? h
    rcases List.mem_cons.1 this with rfl | h'
    · exact boundary_zero
    · obtain ⟨h1, h2⟩ := mem_afterNewlines.1 h'
      have := newline_boundary ht h2
      rwa [Nat.sub_add_cancel h1] at this

theorem offsetOfLine_begin {r : Rope} (hr : r.Balanced) {n : Nat} (hn : n ≤ r.text.count newline + 1) :
    r.offsetOfLine n = some (lineBegin r.text n) := by
  rcases Nat.lt_or_ge (r.text.count newline) n with h | h
  · rw [(C04_offset_of_line_end r n hr).1 (by omega), lineBegin_end h]
  · obtain ⟨off, h1, h2, h3, h4, h5⟩ := C04_offset_of_line r n hr h
    rw [h1]
    rcases Nat.eq_zero_or_pos n with rfl | hp
    · rw [h4 rfl, lineBegin_zero]
    · obtain ⟨g1, g2⟩ := h5 hp
      have := lineBegin_tail (r.text.take off) (r.text.drop off)
      rw [List.take_append_drop, h3] at this
      rw [this]
      obtain ⟨i, rfl⟩ : ∃ i, off = i + 1 := ⟨off - 1, by omega⟩
      have hs : r.text.take (i + 1) = r.text.take i ++ [newline] := by
        rw [List.take_succ]
        simp only [Nat.add_sub_cancel] at g2
        simp [g2]
      rw [hs, show r.text.take i ++ [newline] = r.text.take i ++ newline :: [] from rfl, sinceNewline_last (by simp)]
      simp; omega

/-! ## The chunk and what is around it -/

/-- `Coherent`, with the text before and after the chunk. -/
structure Held (c : ChunkCache) (A B : List UInt8) : Prop where
  offset : c.offset = A.length
  ua : Utf8 A
  uc : Utf8 c.contents
  ub : Utf8 B
  firstLine : c.firstLine = A.count newline
  firstLineOffset : c.firstLineOffset = sinceNewline A
  lineOffsets : c.lineOffsets = afterNewlines c.contents
  bufSize : c.bufSize = (A ++ c.contents ++ B).length
  numLines : c.numLines = (A ++ c.contents ++ B).count newline + 1

theorem Held.coherent {c : ChunkCache} {A B t : List UInt8} (h : Held c A B) (ht : t = A ++ c.contents ++ B) : Coherent c t := by
  subst ht
  have e2 : (A ++ c.contents ++ B).take (A.length + c.contents.length) = A ++ c.contents := by
    rw [← List.length_append, List.take_left']; rfl
  have e1 : (A ++ c.contents ++ B).take A.length = A := by rw [List.append_assoc, List.take_left']; rfl
  refine ⟨by rw [h.offset]; simp, ?_, ?_, ?_, by rw [h.offset, e1]; exact h.firstLine, by rw [h.offset, e1]; exact h.firstLineOffset, h.lineOffsets,
    h.bufSize, h.numLines⟩
  · rw [part, h.offset, e2, List.drop_left']; rfl
  · rw [h.offset, List.append_assoc]; exact charBoundary_ends h.ua (utf8_append h.uc h.ub)
  · rw [h.offset, ← List.length_append]; exact charBoundary_ends (utf8_append h.ua h.uc) h.ub

theorem Coherent.held {c : ChunkCache} {t : List UInt8} (h : Coherent c t) :
    ∃ A B, t = A ++ c.contents ++ B ∧ Held c A B := by
  have hu : Utf8 t := by obtain ⟨a, b, h, -⟩ := h.start; rw [h]; exact ⟨a ++ b, by simp⟩
  have hb1 := ((boundary_iff hu).1 ((boundary_iff_spec hu).2 h.start))
  have hb2 := ((boundary_iff hu).1 ((boundary_iff_spec hu).2 h.stop))
  have hle := h.le
  have hlen : (t.take c.offset).length = c.offset := by rw [List.length_take]; omega
  have hm : t.take (c.offset + c.contents.length) = t.take c.offset ++ c.contents := by
    have := List.take_append_drop c.offset (t.take (c.offset + c.contents.length))
    rw [List.take_take, Nat.min_eq_left (by omega)] at this
    have h' := h.chunk
    rw [part] at h'
    rw [← h'] at this
    exact this.symm
  have ht : t = t.take c.offset ++ c.contents ++ t.drop (c.offset + c.contents.length) := by
    rw [← hm, List.take_append_drop]
  refine ⟨t.take c.offset, t.drop (c.offset + c.contents.length), ht, ?_⟩
  have hutake := hb2.2.1
  rw [hm] at hutake
  exact ⟨hlen.symm, hb1.2.1, utf8_right hb1.2.1 hutake, hb2.2.2, h.firstLine, h.firstLineOffset, h.lineOffsets, by rw [← ht]; exact h.bufSize,
    by rw [← ht]; exact h.numLines⟩

theorem checkedSub_add (a b : Nat) : checkedSub (a + b) a = some b := by simp [checkedSub]

theorem checkedSub_self (a : Nat) : checkedSub a a = some 0 := by simp [checkedSub]

/-- What the cache says about the start of a line is right; and when it says nothing. -/
theorem cachedOffset_spec {c : ChunkCache} {A B : List UInt8} (h : Held c A B) (n : Nat) :
    (A.count newline ≤ n ∧ (n ≤ A.count newline + c.contents.count newline ∨ n = c.numLines ∧ B = []) ∧
      c.cachedOffsetOfLine n = some (some (lineBegin (A ++ c.contents ++ B) n))) ∨
    ((n < A.count newline ∨ A.count newline + c.contents.count newline < n ∧ ¬ (n = c.numLines ∧ B = [])) ∧ c.cachedOffsetOfLine n = some none) := by
  have hlen : c.lineOffsets.length = c.contents.count newline := by rw [h.lineOffsets, afterNewlines_length]
  have hB : c.offset + c.contents.length = c.bufSize ↔ B = [] := by
    rw [h.offset, h.bufSize, List.length_append, List.length_append]
    constructor
    · intro e; exact List.eq_nil_of_length_eq_zero (by omega)
    · rintro rfl; simp
  rw [ChunkCache.cachedOffsetOfLine, h.firstLine, hlen]
  by_cases h1 : n < A.count newline
  · right; exact ⟨.inl h1, by rw [if_pos h1]⟩
  rw [if_neg h1]
  obtain ⟨k, rfl⟩ : ∃ k, n = A.count newline + k := ⟨n - A.count newline, by omega⟩
  simp only [Nat.add_sub_cancel_left]
  by_cases h2 : k = 0
  · left
    subst h2
    refine ⟨by omega, .inl (by omega), ?_⟩
    rw [if_pos rfl, h.offset, h.firstLineOffset, Nat.add_zero, List.append_assoc, lineBegin_tail]
    simp [checkedSub, sinceNewline_le]
  rw [if_neg h2]
  by_cases h3 : k ≤ c.contents.count newline
  · left
    refine ⟨by omega, .inl (by omega), ?_⟩
    have hk : k - 1 < (afterNewlines c.contents).length := by rw [afterNewlines_length]; omega
    rw [if_pos h3, h.lineOffsets, List.getElem?_eq_getElem hk, Option.map_some, h.offset, ← lineBegin_inner (b := B) (List.getElem?_eq_getElem hk),
      Nat.sub_add_cancel (by omega)]
  rw [if_neg h3]
  by_cases h4 : A.count newline + k = c.numLines ∧ c.offset + c.contents.length = c.bufSize
  · left
    refine ⟨by omega, .inr ⟨h4.1, hB.1 h4.2⟩, ?_⟩
    rw [if_pos h4, lineBegin_end, h4.2, h.bufSize]
    rw [h4.1, h.numLines]; omega
  · right
    refine ⟨.inr ⟨by omega, fun hc => h4 ⟨hc.1, hB.2 hc.2⟩⟩, by rw [if_neg h4]⟩

theorem clearUpTo_spec {c : ChunkCache} {A B a b : List UInt8} (h : Held c A B) (hc : c.contents = a ++ b) (ha : Utf8 a) (hb : Utf8 b) :
    ∃ c', c.clearUpTo a.length = some c' ∧ c'.contents = b ∧ Held c' (A ++ a) B ∧ c'.rev = c.rev ∧ c'.numLines = c.numLines ∧ c'.bufSize = c.bufSize := by
  have hbd : isCharBoundary c.contents a.length = true := by rw [hc]; exact boundary_append hb
  have hline : c.newFirstLine a.length = some ((A ++ a).count newline, sinceNewline (A ++ a)) := by
    rw [ChunkCache.newFirstLine, h.lineOffsets, hc, h.firstLine, h.firstLineOffset]
    rcases binSearch_newlines a b with ⟨a', rfl, e⟩ | ⟨hne, e⟩
    · rw [e]
      simp only [← List.append_assoc]
      rw [show A ++ a' ++ [newline] = (A ++ a') ++ newline :: [] by simp, sinceNewline_last (by simp)]
      simp [List.count_append]; omega
    · rw [e]
      rcases last_split a with hn | ⟨a1, a2, rfl, hn⟩
      · rw [List.count_eq_zero.2 hn, List.count_append, List.count_eq_zero.2 hn, sinceNewline_none hn]
        rfl
      · have hcount : (a1 ++ newline :: a2).count newline = a1.count newline + 1 := by
          simp [List.count_append, List.count_cons, List.count_eq_zero.2 hn]
        rw [hcount]
        have hget : (afterNewlines (a1 ++ newline :: a2 ++ b))[a1.count newline]? = some (a1.length + 1) := by
          rw [show a1 ++ newline :: a2 ++ b = a1 ++ ([newline] ++ (a2 ++ b)) by simp, afterNewlines_append,
            List.getElem?_append_right (by rw [afterNewlines_length]; exact Nat.le_refl _), afterNewlines_length, Nat.sub_self, afterNewlines_append]
          simp [afterNewlines]; omega
        simp only [hget, Option.bind_eq_bind, Option.bind_some]
        rw [← List.append_assoc, sinceNewline_last hn]
        have : (a1 ++ newline :: a2).length = (a1.length + 1) + a2.length := by simp; omega
        rw [this, checkedSub_add]
        simp [List.count_append, List.count_cons, List.count_eq_zero.2 hn]
  refine ⟨⟨c.offset + a.length, c.contents.drop a.length, (A ++ a).count newline, sinceNewline (A ++ a),
    (c.lineOffsets.filter (fun i => i > a.length)).map (· - a.length), c.bufSize, c.numLines, c.rev⟩,
    by simp only [ChunkCache.clearUpTo, hbd, if_true, hline, Option.bind_eq_bind, Option.bind_some]; rfl, by rw [hc]; simp, ?_, rfl, rfl, rfl⟩
  have hdrop : c.contents.drop a.length = b := by rw [hc]; simp
  have hall : A ++ a ++ b ++ B = A ++ c.contents ++ B := by rw [hc]; simp
  refine ⟨?_, utf8_append h.ua ha, by simp only [hdrop]; exact hb, h.ub, rfl, rfl, ?_, ?_, ?_⟩
  · simp [h.offset]
  · simp only [hdrop]
    rw [h.lineOffsets, hc, afterNewlines_append, List.filter_append]
    have e1 : (afterNewlines a).filter (fun i => decide (i > a.length)) = [] := by
      rw [List.filter_eq_nil_iff]
      intro k hk
      have := afterNewlines_bounds hk
      simp; omega
    have e2 : ((afterNewlines b).map (· + a.length)).filter (fun i => decide (i > a.length)) = (afterNewlines b).map (· + a.length) := by
      rw [List.filter_eq_self]
      intro k hk
      obtain ⟨j, hj, rfl⟩ := List.mem_map.1 hk
      have := afterNewlines_bounds hj
      simp; omega
    rw [e1, e2, List.nil_append, List.map_map]
    refine Eq.trans (List.map_congr_left (g := id) fun k _ => ?_) (List.map_id _)
    simp
  · simp only [hdrop, hall]; exact h.bufSize
  · simp only [hdrop, hall]; exact h.numLines

/-! ## The answers of the core -/

theorem answer_at {r : Rope} (hr : r.Balanced) {o size : Nat} (ho : CharBoundary r.text o) (hs : 4 ≤ size) :
    ∃ A C B, r.text = A ++ C ++ B ∧ A.length = o ∧ Utf8 A ∧ Utf8 C ∧ Utf8 B ∧
      (∀ k, o ≤ k → k < r.text.length → (∀ j, o < j → j ≤ k → ¬ CharBoundary r.text j) → k < o + C.length) ∧
      (do
        let chunk ← r.sliceToCow (.range o (← chunkEnd r o size))
        let firstLine ← r.lineOfOffset o
        let firstLineOffset ← checkedSub o (← r.offsetOfLine firstLine)
        return some (⟨chunk, o, firstLine, firstLineOffset⟩ : GetData)) = some (some ⟨C, o, A.count newline, sinceNewline A⟩) := by
  have hu := Rope.text_utf8 hr
  have hlen : r.len = r.text.length := Rope.len_eq hr
  have hol := boundary_le ho
  have hend : ∃ e, chunkEnd r o size = some e ∧ o ≤ e ∧ CharBoundary r.text e ∧
      (∀ k, o ≤ k → k < r.text.length → (∀ j, o < j → j ≤ k → ¬ CharBoundary r.text j) → k < e) := by
    rw [chunkEnd, hlen]
    split
    · refine ⟨_, rfl, hol, (boundary_iff_spec hu).1 boundary_length, fun k _ h _ => h⟩
    · rename_i hlt
      have hm : 4 ≤ min size maxSizeLimit := by have : maxSizeLimit = 1048576 := rfl; omega
      obtain ⟨p, h1, h2⟩ := C52_prev_codepoint_offset r (o + min size maxSizeLimit + 1) hr (by omega)
      obtain ⟨j, j1, j2, j3, -⟩ := boundary_near hu (i := o + 4) (by omega)
      have hj := (boundary_iff_spec hu).1 j3
      cases p with
      | none => exact absurd hj (h2 j (by omega))
      | some e =>
        have hje : j ≤ e := by
          rcases Nat.lt_or_ge e j with h | h
          · exact absurd hj (h2.2.2 j h (by omega))
          · exact h
        refine ⟨e, by rw [h1]; rfl, by omega, h2.2.1, fun k k1 k2 k3 => ?_⟩
        rcases Nat.lt_or_ge k j with h | h
        · omega
        · exact absurd hj (k3 j (by omega) h)
  obtain ⟨e, h1, h2, h3, h4⟩ := hend
  have hel := boundary_le h3
  have hb1 := ((boundary_iff hu).1 ((boundary_iff_spec hu).2 ho))
  have hb2 := ((boundary_iff hu).1 ((boundary_iff_spec hu).2 h3))
  have hA : (r.text.take o).length = o := by rw [List.length_take]; omega
  have hC : ((r.text.take e).drop o).length = e - o := by rw [List.length_drop, List.length_take]; omega
  have hm : r.text.take o ++ (r.text.take e).drop o = r.text.take e := by
    have := List.take_append_drop o (r.text.take e)
    rwa [List.take_take, Nat.min_eq_left h2] at this
  refine ⟨r.text.take o, (r.text.take e).drop o, r.text.drop e, by rw [hm, List.take_append_drop], hA, hb1.2.1, Diff.slice_utf8 hu ho h3 h2, hb2.2.2,
    fun k k1 k2 k3 => by have := h4 k k1 k2 k3; omega, ?_⟩
  have hcount : (r.text.take o).count newline ≤ r.text.count newline := (List.take_sublist _ _).count_le _
  have hbeg := lineBegin_tail (r.text.take o) (r.text.drop o)
  rw [List.take_append_drop, hA] at hbeg
  have hsince := sinceNewline_le (r.text.take o)
  rw [hA] at hsince
  simp only [h1, Option.bind_eq_bind, Option.bind_some, Rope.sliceToCow_spec hr (lo := o) (hi := e) (range := .range o e) (by simp [Bounds.intoInterval]) ho h3,
    C04_line_of_offset r o hr ho, offsetOfLine_begin hr (Nat.le_succ_of_le hcount), hbeg]
  rw [checkedSub, if_pos (by omega), Option.bind_some, show o - (o - sinceNewline (r.text.take o)) = sinceNewline (r.text.take o) by omega]
  rfl

theorem resetChunk_held {c : ChunkCache} {t A C B : List UInt8} {o : Nat} (ht : t = A ++ C ++ B) (ho : A.length = o) (ha : Utf8 A) (hc : Utf8 C) (hb : Utf8 B)
    (h1 : c.bufSize = t.length) (h2 : c.numLines = t.count newline + 1) : Held (c.resetChunk ⟨C, o, A.count newline, sinceNewline A⟩) A B := by
  subst ht
  exact ⟨ho.symm, ha, hc, hb, rfl, rfl, newlineOffsets_eq C, h1, h2⟩

theorem appendChunk_held {c : ChunkCache} {A B1 B2 : List UInt8} {o l f : Nat} (h : Held c A (B1 ++ B2)) (h1 : Utf8 B1) (h2 : Utf8 B2) :
    Held (c.appendChunk ⟨B1, o, l, f⟩) A B2 := by
  refine ⟨h.offset, h.ua, utf8_append h.uc h1, h2, h.firstLine, h.firstLineOffset, newlineOffsets_eq _, ?_, ?_⟩
  · show c.bufSize = (A ++ (c.contents ++ B1) ++ B2).length
    rw [h.bufSize]; simp
  · show c.numLines = (A ++ (c.contents ++ B1) ++ B2).count newline + 1
    rw [h.numLines]; simp

end Plugin

end Xi
