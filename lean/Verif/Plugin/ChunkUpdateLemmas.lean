import Verif.Plugin.ChunkReadLemmas

/-! # Edits in the chunk cache -/

namespace Xi

namespace Plugin

/-! ## The shape of simple edits -/

/-- Copying what is before `i`. -/
def pre (i : Nat) : List (DeltaElement UInt8) := if i = 0 then [] else [.copy 0 i]

/-- Copying what is after `e`. -/
def post (n e : Nat) : List (DeltaElement UInt8) := if e = n then [] else [.copy e n]

theorem asSimpleInsert_shape {d : Delta UInt8} (h : d.WF) {s : List UInt8} (hs : d.asSimpleInsert = some s) :
    ∃ i, i ≤ d.baseLen ∧ d.summary.1 = (i, i) ∧ d.els = pre i ++ ([.insert s] ++ post d.baseLen i) := by
  obtain ⟨els, n⟩ := d
  simp only [Delta.WF] at h
  simp only [Delta.asSimpleInsert] at hs
  have tail : ∀ {i : Nat} {rest : List (DeltaElement UInt8)}, ElsWF n i rest → Delta.asSimpleInsertTail n i rest = some s →
      i ≤ n ∧ rest = [.insert s] ++ post n i := by
    intro i rest hw ht
    unfold Delta.asSimpleInsertTail at ht
    split at ht
    · split at ht
      · cases ht
        exact ⟨by omega, by simp [post, *]⟩
      · cases ht
    · split at ht
      · rename_i hc
        cases ht
        obtain ⟨h1, h2, h3⟩ := hw
        obtain ⟨rfl, rfl⟩ := hc
        refine ⟨by omega, ?_⟩
        rw [post, if_neg (by omega)]
        simp
      · cases ht
    · cases ht
  split at hs
  · rename_i b e rest
    split at hs
    · cases hs
    · rename_i hb
      have hb : b = 0 := by omega
      subst hb
      obtain ⟨h1, h2, h3⟩ := h
      obtain ⟨t1, t2⟩ := tail h3 hs
      refine ⟨e, t1, ?_, ?_⟩
      · rw [t2, post]
        by_cases he : e = n
        · rw [if_pos he]; simp [Delta.summary, he]
        · rw [if_neg he]; simp [Delta.summary]
      · rw [pre, if_neg (by omega), t2]; rfl
  · rename_i hne
    obtain ⟨t1, t2⟩ := tail h hs
    refine ⟨0, Nat.zero_le _, ?_, by simpa [pre] using t2⟩
    rw [t2, post]
    by_cases he : 0 = n
    · rw [if_pos he]; simp [Delta.summary, he]
    · rw [if_neg he]; simp [Delta.summary]

theorem isSimpleDelete_shape {d : Delta UInt8} (h : d.WF) (hs : d.isSimpleDelete = true) :
    ∃ i e, i < e ∧ e ≤ d.baseLen ∧ d.summary.1 = (i, e) ∧ d.els = pre i ++ post d.baseLen e := by
  obtain ⟨els, n⟩ := d
  simp only [Delta.WF] at h
  simp only [Delta.isSimpleDelete] at hs
  split at hs
  · exact ⟨0, n, by simpa using hs, Nat.le_refl _, by simp [Delta.summary], by simp [pre, post]⟩
  · rename_i b e rest
    obtain ⟨h1, h2, h3⟩ := h
    split at hs
    · rename_i hb
      subst hb
      split at hs
      · simp only [decide_eq_true_eq] at hs
        exact ⟨e, n, hs, Nat.le_refl _, by simp [Delta.summary], by simp [pre, post]; omega⟩
      · rename_i b1 e1 rest'
        simp only [Bool.and_eq_true, decide_eq_true_eq, List.isEmpty_iff, beq_iff_eq] at hs
        obtain ⟨⟨rfl, g1⟩, rfl⟩ := hs
        obtain ⟨_, g2, _⟩ := h3
        exact ⟨e, b1, g1, by show b1 ≤ e1; omega, by simp [Delta.summary], by rw [pre, post, if_neg (by omega), if_neg (by show ¬ b1 = e1; omega)]; rfl⟩
      · cases hs
    · rename_i hb
      simp only [Bool.and_eq_true, beq_iff_eq, List.isEmpty_iff] at hs
      obtain ⟨rfl, rfl⟩ := hs
      refine ⟨0, b, by omega, by show b ≤ e; omega, ?_, by simp [pre, post]; omega⟩
      obtain ⟨k, rfl⟩ : ∃ k, b = k + 1 := ⟨b - 1, by omega⟩
      simp [Delta.summary]
  · cases hs

theorem elsText_pre {t : List UInt8} (i : Nat) : elsText t (pre i) = t.take i := by
  rw [pre]; split <;> simp [*]

theorem elsText_post {t : List UInt8} (e : Nat) : elsText t (post t.length e) = t.drop e := by
  rw [post]; split <;> simp [*]

/-! ## The new contents -/

section

variable {c : ChunkCache} {A B t : List UInt8}

theorem foldlM_pre {i : Nat} (hh : Held c A B) (ht : t = A ++ c.contents ++ B) (h1 : c.offset ≤ i) (h2 : i ≤ c.offset + c.contents.length) (hb : CharBoundary t i) :
    (pre i).foldlM (ChunkCache.updateStep c) ⟨[], 0, 0, 0⟩ = some ⟨c.contents.take (i - c.offset), i, 0, 0⟩ := by
  rw [pre]
  split
  · rename_i hi
    simp [hi]
  · obtain ⟨k, rfl⟩ : ∃ k, i = c.offset + k := ⟨i - c.offset, by omega⟩
    have hk := (boundary_iff_spec hh.uc).2 ((inner_boundary hh ht (by omega)).1 hb)
    have hs : strSlice c.contents 0 (min k c.contents.length) = some (c.contents.take k) := by
      rw [Nat.min_eq_left (by omega), strSlice, if_pos ⟨Nat.zero_le _, boundary_zero, hk⟩]; rfl
    simp only [List.foldlM_cons, List.foldlM_nil, ChunkCache.updateStep, Nat.add_sub_cancel_left]
    by_cases h0 : 0 < c.offset
    · rw [if_pos h0]
      simp only [checkedSub, Nat.le_refl, if_true, Nat.sub_self, Option.bind_eq_bind, Option.bind_some]
      rw [if_pos (by omega), hs]
      rfl
    · have h0 : c.offset = 0 := by omega
      simp only [h0, Nat.lt_irrefl, if_false, Nat.zero_le, if_true, Nat.sub_self, checkedSub, Nat.sub_zero, Nat.zero_add, Option.bind_eq_bind, Option.bind_some, hs]
      rfl

theorem foldlM_post {N : List UInt8} {i e : Nat} (hh : Held c A B) (ht : t = A ++ c.contents ++ B) (h1 : c.offset ≤ i) (h2 : i ≤ e) (he : e ≤ t.length) (hb : CharBoundary t e) :
    ∃ p, (post t.length e).foldlM (ChunkCache.updateStep c) ⟨N, i, 0, 0⟩ = some ⟨N ++ c.contents.drop (e - c.offset), p, 0, 0⟩ := by
  have hlen := held_len hh ht
  rw [post]
  split
  · rw [List.drop_eq_nil_of_le (by omega)]
    exact ⟨i, by simp⟩
  · refine ⟨t.length, ?_⟩
    simp only [List.foldlM_cons, List.foldlM_nil, ChunkCache.updateStep]
    rw [if_neg (by omega)]
    by_cases hc : e ≤ c.offset + c.contents.length
    · obtain ⟨k, rfl⟩ : ∃ k, e = c.offset + k := ⟨e - c.offset, by omega⟩
      have hk := (boundary_iff_spec hh.uc).2 ((inner_boundary hh ht (by omega)).1 hb)
      rw [if_pos hc, if_neg (by omega), Nat.add_sub_cancel_left, checkedSub, if_pos (by omega)]
      simp only [Option.bind_eq_bind, Option.bind_some]
      rw [Nat.min_eq_right (by omega), strSlice, if_pos ⟨by omega, hk, boundary_length⟩, List.take_length]
      rfl
    · rw [if_neg hc, List.drop_eq_nil_of_le (by omega)]
      simp

theorem foldlM_insert {N s : List UInt8} {i : Nat} (h1 : c.offset ≤ i) (h2 : i ≤ c.offset + c.contents.length) :
    [DeltaElement.insert s].foldlM (ChunkCache.updateStep c) ⟨N, i, 0, 0⟩ = some ⟨N ++ s, i, 0, 0⟩ := by
  simp only [List.foldlM_cons, List.foldlM_nil, ChunkCache.updateStep]
  rw [if_neg (by omega), if_pos h2]
  rfl

end

/-- The chunk follows the edit whatever its line offsets are. -/
theorem updateStep_offsets (c : ChunkCache) (l : List Nat) : ChunkCache.updateStep { c with lineOffsets := l } = ChunkCache.updateStep c := rfl

/-! ## The new line offsets -/

theorem simpleInsert_spec {c : ChunkCache} {a b s : List UInt8} (hc : c.contents = a ++ b) (hl : c.lineOffsets = afterNewlines c.contents) :
    c.simpleInsert s (c.offset + a.length) = some { c with lineOffsets := afterNewlines (a ++ s ++ b) } := by
  have hsh : c.lineOffsets.map (fun off => if off > a.length then off + s.length else off) =
      afterNewlines a ++ (afterNewlines b).map (· + (a ++ s).length) := by
    rw [hl, hc, afterNewlines_append, List.map_append, List.map_map]
    congr 1
    · refine Eq.trans (List.map_congr_left (g := id) fun k hk => ?_) (List.map_id _)
      have := afterNewlines_bounds hk
      rw [if_neg (by omega)]; rfl
    · apply List.map_congr_left
      intro k hk
      have := afterNewlines_bounds hk
      simp only [Function.comp_apply, List.length_append]
      rw [if_pos (by omega)]; omega
  rw [ChunkCache.simpleInsert, checkedSub_add]
  simp only [Option.bind_eq_bind, Option.bind_some, hsh, newlineOffsets_eq]
  by_cases h : s.count newline > 0
  · rw [if_pos h]
    have hne : afterNewlines s ≠ [] := by intro e; rw [← afterNewlines_length, e] at h; simp at h
    obtain ⟨f, l, he⟩ := List.exists_cons_of_ne_nil hne
    have hf := afterNewlines_bounds (s := s) (k := f) (by rw [he]; simp)
    have hb : binSearch (afterNewlines a ++ (afterNewlines b).map (· + (a ++ s).length)) (f + a.length) = .inr (afterNewlines a).length := by
      apply binSearch_inr
      · intro y hy
        have := afterNewlines_bounds hy
        omega
      · intro y hy
        obtain ⟨k, hk, rfl⟩ := List.mem_map.1 hy
        have := afterNewlines_bounds hk
        simp only [List.length_append]
        omega
    simp only [he, List.map_cons, ChunkCache.mergeOffsets, hb, Option.bind_some]
    rw [List.take_left', List.drop_left']
    · rw [afterNewlines_append, afterNewlines_append, he, List.map_cons]; rfl
    · rfl
    · rfl
  · rw [if_neg h, afterNewlines_append, afterNewlines_append, afterNewlines_none (s := s)]
    · simp
    · exact List.count_eq_zero.1 (by omega)

theorem filterMap_same {f g : Nat → Option Nat} : ∀ {l : List Nat}, (∀ k ∈ l, f k = g k) → l.filterMap f = l.filterMap g
  | [], _ => rfl
  | x :: l, h => by
    rw [List.filterMap_cons, List.filterMap_cons, h x (by simp), filterMap_same (l := l) (fun k hk => h k (by simp [hk]))]

theorem simpleDelete_spec {c : ChunkCache} {a d b : List UInt8} (hc : c.contents = a ++ d ++ b) (hl : c.lineOffsets = afterNewlines c.contents) :
    c.simpleDelete (c.offset + a.length) (c.offset + a.length + d.length) = some { c with lineOffsets := afterNewlines (a ++ b) } := by
  have hall : c.lineOffsets = afterNewlines a ++ (afterNewlines d).map (· + a.length) ++ (afterNewlines b).map (· + (a ++ d).length) := by
    rw [hl, hc, afterNewlines_append, afterNewlines_append]
  rw [ChunkCache.simpleDelete, checkedSub_add]
  simp only [Option.bind_eq_bind, Option.bind_some]
  rw [checkedSub_add, Nat.add_assoc, checkedSub_add]
  simp only [Option.bind_some]
  have hmid : (c.contents.take (a.length + d.length)).drop a.length = d := by
    rw [hc, ← List.length_append, List.take_left' rfl, List.drop_left' rfl]
  rw [if_pos (by rw [hc]; simp), hmid]
  have hgoal : afterNewlines (a ++ b) = afterNewlines a ++ ([] ++ (afterNewlines b).map (· + a.length)) := by rw [afterNewlines_append, List.nil_append]
  by_cases hm : (memchr newline d).isSome = true
  · rw [if_pos hm, hall, hgoal]
    simp only [List.filterMap_append, List.append_assoc, List.filterMap_map]
    congr 4
    · refine Eq.trans (filterMap_same (g := some) fun k hk => ?_) List.filterMap_some
      have := afterNewlines_bounds hk
      rw [ChunkCache.deletedOffset, if_pos (by omega)]
    · rw [List.filterMap_eq_nil_iff]
      intro k hk
      have := afterNewlines_bounds hk
      simp only [Function.comp_apply]
      rw [ChunkCache.deletedOffset, if_neg (by omega), if_pos (by omega)]
    · rw [← List.filterMap_eq_map]
      apply filterMap_same
      intro k hk
      have := afterNewlines_bounds hk
      simp only [Function.comp_apply, List.length_append]
      rw [ChunkCache.deletedOffset, if_neg (by omega), if_neg (by omega)]
      congr 1
      omega
  · rw [if_neg hm, hall, hgoal]
    have hd : afterNewlines d = [] := by
      apply afterNewlines_none
      rcases memchr_split (s := d) with ⟨-, h2⟩ | ⟨_, _, _, _, h3⟩
      · exact h2
      · rw [h3] at hm; simp at hm
    simp only [hd, List.map_nil, List.append_nil, List.map_append, List.map_map, List.nil_append]
    show some _ = some _
    congr 3
    · refine Eq.trans (List.map_congr_left (g := id) fun k hk => ?_) (List.map_id _)
      have := afterNewlines_bounds hk
      simp only [id_eq]
      split
      · omega
      · rfl
    · apply List.map_congr_left
      intro k hk
      have := afterNewlines_bounds hk
      simp only [Function.comp_apply, List.length_append]
      rw [if_pos (by omega)]
      omega

/-! ## Updates -/

theorem elsText_utf8 {t : List UInt8} (ht : Utf8 t) {n : Nat} : ∀ {els : List (DeltaElement UInt8)} {lo : Nat}, ElsWF n lo els →
    WholeChars t ⟨els, n⟩ → Utf8 (elsText t els)
  | [], _, _, _ => utf8_nil
  | .copy b e :: els, _, h, hw => by
    obtain ⟨h1, h2, h3⟩ := h
    obtain ⟨w1, w2⟩ : CharBoundary t b ∧ CharBoundary t e := hw (.copy b e) (by simp)
    rw [elsText_copy]
    exact utf8_append (Diff.slice_utf8 ht w1 w2 (by omega)) (elsText_utf8 ht h3 (fun el hel => hw el (by simp [hel])))
  | .insert s :: els, _, h, hw => by
    have w : Utf8 s := hw (.insert s) (by simp)
    rw [elsText_insert]
    exact utf8_append w (elsText_utf8 ht h.2 (fun el hel => hw el (by simp [hel])))

theorem held_clear {c : ChunkCache} {t : List UInt8} (ht : Utf8 t) {rev : Nat} :
    Coherent { c.clear with bufSize := t.length, numLines := t.count newline + 1, rev := rev } t := by
  refine Held.coherent (A := []) (B := t) ⟨rfl, utf8_nil, utf8_nil, ht, rfl, rfl, rfl, ?_, ?_⟩ ?_ <;> simp [ChunkCache.clear]

theorem boundary_pre {t : List UInt8} (ht : Utf8 t) {els : List (DeltaElement UInt8)} {n i : Nat} (hw : WholeChars t ⟨els, n⟩) (h : ∀ el ∈ pre i, el ∈ els) : CharBoundary t i := by
  rw [pre] at h
  split at h
  · rename_i hi; rw [hi]; exact (boundary_iff_spec ht).1 boundary_zero
  · have := hw (.copy 0 i) (h _ (by simp))
    exact this.2

theorem boundary_post {t : List UInt8} (ht : Utf8 t) {els : List (DeltaElement UInt8)} {n e : Nat} (hw : WholeChars t ⟨els, n⟩) (h : ∀ el ∈ post t.length e, el ∈ els) : CharBoundary t e := by
  rw [post] at h
  split at h
  · rename_i hi; rw [hi]; exact (boundary_iff_spec ht).1 boundary_length
  · have := hw (.copy e t.length) (h _ (by simp))
    exact this.1

/-- What remains: the chunk has lost `[i, e)` and has `s` instead. -/
theorem update_held {c : ChunkCache} {A B t s : List UInt8} {i e rev : Nat} (hh : Held c A B) (ht : t = A ++ c.contents ++ B) (h1 : c.offset ≤ i)
    (h2 : i ≤ c.offset + c.contents.length) (h3 : i ≤ e) (h4 : e ≤ t.length) (hi : CharBoundary t i) (he : CharBoundary t e) (hs : Utf8 s) :
    Coherent ⟨c.offset, c.contents.take (i - c.offset) ++ s ++ c.contents.drop (e - c.offset), c.firstLine, c.firstLineOffset,
      afterNewlines (c.contents.take (i - c.offset) ++ s ++ c.contents.drop (e - c.offset)),
      (t.take i ++ s ++ t.drop e).length, (t.take i ++ s ++ t.drop e).count newline + 1, rev⟩ (t.take i ++ s ++ t.drop e) := by
  have hlen := held_len hh ht
  have hoff := hh.offset
  have e1 : t.take i = A ++ c.contents.take (i - c.offset) := by
    obtain ⟨k, rfl⟩ : ∃ k, i = c.offset + k := ⟨i - c.offset, by omega⟩
    rw [Nat.add_sub_cancel_left, ht, hh.offset, List.append_assoc, List.take_length_add_append, List.take_append_of_le_length (by omega)]
  have e2 : t.drop e = c.contents.drop (e - c.offset) ++ B.drop (e - (c.offset + c.contents.length)) := by
    rw [ht, List.drop_append, List.drop_append, List.drop_eq_nil_of_le (by omega), List.length_append, hoff, List.nil_append]
  have hut : Utf8 t := by rw [ht]; exact utf8_append (utf8_append hh.ua hh.uc) hh.ub
  have u1 : Utf8 (c.contents.take (i - c.offset)) := by
    obtain ⟨k, rfl⟩ : ∃ k, i = c.offset + k := ⟨i - c.offset, by omega⟩
    rw [Nat.add_sub_cancel_left]
    exact ((boundary_iff hh.uc).1 ((boundary_iff_spec hh.uc).2 ((inner_boundary hh ht (by omega)).1 hi))).2.1
  have u2 : Utf8 (c.contents.drop (e - c.offset)) := by
    obtain ⟨k, rfl⟩ : ∃ k, e = c.offset + k := ⟨e - c.offset, by omega⟩
    rw [Nat.add_sub_cancel_left]
    rcases Nat.lt_or_ge c.contents.length k with hk | hk
    · rw [List.drop_eq_nil_of_le (by omega)]; exact utf8_nil
    · exact ((boundary_iff hh.uc).1 ((boundary_iff_spec hh.uc).2 ((inner_boundary hh ht hk).1 he))).2.2
  have u3 : Utf8 (B.drop (e - (c.offset + c.contents.length))) := by
    have hd := ((boundary_iff hut).1 ((boundary_iff_spec hut).2 he)).2.2
    rw [e2] at hd
    exact utf8_right u2 hd
  have hT : t.take i ++ s ++ t.drop e = A ++ (c.contents.take (i - c.offset) ++ s ++ c.contents.drop (e - c.offset)) ++ B.drop (e - (c.offset + c.contents.length)) := by
    rw [e1, e2]; simp
  refine Held.coherent (A := A) (B := B.drop (e - (c.offset + c.contents.length)))
    ⟨hoff, hh.ua, utf8_append (utf8_append u1 hs) u2, u3, hh.firstLine, hh.firstLineOffset, rfl, ?_, ?_⟩ hT
  · simp only [hT]
  · simp only [hT]

/-- The cache after `[i, e)` has been replaced with `s`. -/
def edited (c : ChunkCache) (i e : Nat) (s : List UInt8) : ChunkCache :=
  ⟨c.offset, c.contents.take (i - c.offset) ++ s ++ c.contents.drop (e - c.offset), c.firstLine, c.firstLineOffset,
    afterNewlines (c.contents.take (i - c.offset) ++ s ++ c.contents.drop (e - c.offset)), c.bufSize, c.numLines, c.rev⟩

theorem updateText_delete {c : ChunkCache} {A B t : List UInt8} {els : List (DeltaElement UInt8)} {i e : Nat} (hh : Held c A B) (ht : t = A ++ c.contents ++ B)
    (h0 : ¬ (c.offset = 0 ∧ c.contents = [])) (h1 : c.offset ≤ i) (h2 : i ≤ c.offset + c.contents.length) (g1 : i < e) (g2 : e ≤ t.length)
    (hs : Delta.isSimpleDelete ⟨els, t.length⟩ = true) (g3 : (Delta.summary ⟨els, t.length⟩).1 = (i, e)) (g4 : els = pre i ++ post t.length e)
    (hi : CharBoundary t i) (he : CharBoundary t e) :
    c.updateText (some ⟨els, t.length⟩) = some (edited c i e []) := by
  rw [ChunkCache.updateText, if_neg h0, ChunkCache.shouldClear, Interval.new, if_pos (by rw [g3]; show i ≤ e; omega)]
  simp only [Option.bind_eq_bind, Option.bind_some, g3]
  rw [if_neg (by omega), if_pos hs]
  obtain ⟨k, rfl⟩ : ∃ k, i = c.offset + k := ⟨i - c.offset, by omega⟩
  have hca : (c.contents.take k).length = k := by rw [List.length_take]; omega
  have hsplit : c.contents = c.contents.take k ++ (c.contents.drop k).take (e - (c.offset + k)) ++ c.contents.drop (e - c.offset) := by
    rw [List.append_assoc]
    have : c.contents.drop (e - c.offset) = (c.contents.drop k).drop (e - (c.offset + k)) := by rw [List.drop_drop]; congr 1; omega
    rw [this, List.take_append_drop, List.take_append_drop]
  have hdl : min e (c.offset + c.contents.length) = c.offset + (c.contents.take k).length + ((c.contents.drop k).take (e - (c.offset + k))).length := by
    rw [hca, List.length_take, List.length_drop]; omega
  have key := simpleDelete_spec hsplit hh.lineOffsets
  rw [← hdl, hca] at key
  rw [key]
  simp only [Option.map_some, Option.bind_some, ChunkCache.updateChunk, updateStep_offsets, g4, List.foldlM_append,
    foldlM_pre hh ht (i := c.offset + k) (by omega) (by omega) hi, Nat.add_sub_cancel_left]
  obtain ⟨p, hp⟩ := foldlM_post (N := c.contents.take k) (i := c.offset + k) (e := e) hh ht (by omega) (by omega) (by omega) he
  simp only [Option.bind_eq_bind, Option.bind_some, hp, checkedSub, Nat.zero_le, if_true, Nat.add_zero, Nat.sub_zero]
  simp [edited]

theorem updateText_insert {c : ChunkCache} {A B t s : List UInt8} {els : List (DeltaElement UInt8)} {i : Nat} (hh : Held c A B) (ht : t = A ++ c.contents ++ B)
    (h0 : ¬ (c.offset = 0 ∧ c.contents = [])) (h1 : c.offset ≤ i) (h2 : i ≤ c.offset + c.contents.length)
    (hn : ¬ Delta.isSimpleDelete ⟨els, t.length⟩ = true) (hs : Delta.asSimpleInsert ⟨els, t.length⟩ = some s) (g3 : (Delta.summary ⟨els, t.length⟩).1 = (i, i))
    (g4 : els = pre i ++ ([.insert s] ++ post t.length i)) (hi : CharBoundary t i) :
    c.updateText (some ⟨els, t.length⟩) = some (edited c i i s) := by
  have hlen := held_len hh ht
  rw [ChunkCache.updateText, if_neg h0, ChunkCache.shouldClear, Interval.new, if_pos (by rw [g3]; exact Nat.le_refl i)]
  simp only [Option.bind_eq_bind, Option.bind_some, g3]
  rw [if_neg (by omega), if_neg hn, hs]
  obtain ⟨k, rfl⟩ : ∃ k, i = c.offset + k := ⟨i - c.offset, by omega⟩
  have hca : (c.contents.take k).length = k := by rw [List.length_take]; omega
  have key := simpleInsert_spec (s := s) (List.take_append_drop k c.contents).symm hh.lineOffsets
  rw [hca] at key
  simp only [Nat.sub_self, if_true, key]
  simp only [Option.map_some, Option.bind_some, ChunkCache.updateChunk, updateStep_offsets, g4, List.foldlM_append,
    foldlM_pre hh ht (i := c.offset + k) (by omega) (by omega) hi, Nat.add_sub_cancel_left, Option.bind_eq_bind,
    foldlM_insert (c := c) (i := c.offset + k) (by omega) (by omega)]
  obtain ⟨p, hp⟩ := foldlM_post (N := c.contents.take k ++ s) (i := c.offset + k) (e := c.offset + k) hh ht (by omega) (by omega) (by omega) hi
  simp only [Option.bind_some, hp, checkedSub, Nat.zero_le, if_true, Nat.add_zero, Nat.sub_zero, Nat.add_sub_cancel_left]
  simp [edited]

theorem update_spec {c : ChunkCache} {t t' : List UInt8} {d : Delta UInt8} (hc : Coherent c t) (hd : d.WF) (hl : t.length = d.baseLen)
    (hw : WholeChars t d) (ha : d.apply t = some t') (rev : Nat) :
    ∃ c', c.update (some d) t'.length (t'.count newline + 1) rev = some c' ∧ Coherent c' t' ∧ c'.rev = rev := by
  obtain ⟨A, B, ht, hh⟩ := hc.held
  have hut : Utf8 t := by rw [ht]; exact utf8_append (utf8_append hh.ua hh.uc) hh.ub
  rw [d.apply_spec t hd hl] at ha
  have ha : elsText t d.els = t' := Option.some.inj ha
  have hut' : Utf8 t' := by rw [← ha]; exact elsText_utf8 hut hd hw
  have clears : c.updateText (some d) = some c.clear → ∃ c', c.update (some d) t'.length (t'.count newline + 1) rev = some c' ∧ Coherent c' t' ∧ c'.rev = rev := by
    intro h
    rw [ChunkCache.update, h]
    exact ⟨_, rfl, held_clear hut', rfl⟩
  by_cases h0 : c.offset = 0 ∧ c.contents = []
  · exact clears (by rw [ChunkCache.updateText, if_pos h0])
  obtain ⟨s1, s2, -⟩ := d.summary_spec t hd hl
  by_cases h1 : d.summary.1.1 < c.offset ∨ d.summary.1.1 > c.offset + c.contents.length
  · apply clears
    rw [ChunkCache.updateText, if_neg h0, ChunkCache.shouldClear, Interval.new, if_pos s1]
    simp only [Option.bind_eq_bind, Option.bind_some]
    rw [if_pos h1]
    rfl
  obtain ⟨els, n⟩ := d
  subst hl
  by_cases h2 : Delta.isSimpleDelete ⟨els, t.length⟩ = true
  · obtain ⟨i, e, g1, g2, g3, g4⟩ := isSimpleDelete_shape hd h2
    simp only [g3] at h1 s1 s2
    simp only at g2 g4
    have hi := boundary_pre (i := i) hut hw (fun el hel => by rw [g4]; simp [hel])
    have he := boundary_post (e := e) hut hw (fun el hel => by rw [g4]; simp [hel])
    rw [ChunkCache.update, updateText_delete hh ht h0 (by omega) (by omega) g1 g2 h2 g3 g4 hi he]
    refine ⟨_, rfl, ?_, rfl⟩
    have hfin := update_held (rev := rev) (s := []) hh ht (i := i) (e := e) (by omega) (by omega) (by omega) (by omega) hi he utf8_nil
    have htt : t.take i ++ [] ++ t.drop e = t' := by rw [← ha, g4, elsText_append, elsText_pre, elsText_post, List.append_nil]
    rw [htt] at hfin
    exact hfin
  · cases h3 : Delta.asSimpleInsert ⟨els, t.length⟩ with
    | none =>
      apply clears
      rw [ChunkCache.updateText, if_neg h0, ChunkCache.shouldClear, Interval.new, if_pos s1]
      simp only [Option.bind_eq_bind, Option.bind_some]
      rw [if_neg h1, if_neg h2, h3]
      rfl
    | some s =>
      obtain ⟨i, g2, g3, g4⟩ := asSimpleInsert_shape hd h3
      simp only [g3] at h1 s1 s2
      simp only at g2 g4
      have hi := boundary_pre (i := i) hut hw (fun el hel => by rw [g4]; simp [hel])
      have hs : Utf8 s := hw (.insert s) (by rw [g4]; simp)
      rw [ChunkCache.update, updateText_insert hh ht h0 (by omega) (by omega) h2 h3 g3 g4 hi]
      refine ⟨_, rfl, ?_, rfl⟩
      have hfin := update_held (rev := rev) (s := s) hh ht (i := i) (e := i) (by omega) (by omega) (by omega) (by omega) hi hi hs
      have htt : t.take i ++ s ++ t.drop i = t' := by
        rw [← ha, g4, elsText_append, elsText_pre, elsText_append, elsText_post]; simp
      rw [htt] at hfin
      exact hfin

/-! ## Edits of one place -/

theorem simpleEdit_shape {i e n : Nat} {s : List UInt8} (h2 : e ≤ n) :
    Delta.simpleEdit i e s n = some ⟨pre i ++ ((if s = [] then [] else [.insert s]) ++ post n e), n⟩ := by
  have hp : (DeltaBuilder.new n : DeltaBuilder UInt8).delete i e = some ⟨⟨pre i, n⟩, e⟩ := by
    by_cases hi : i = 0
    · simp [pre, hi, DeltaBuilder.delete, DeltaBuilder.new]
    · have : 0 < i := by omega
      simp [pre, hi, DeltaBuilder.delete, DeltaBuilder.new, this]
  have hb : ∀ els : List (DeltaElement UInt8), DeltaBuilder.build ⟨⟨els, n⟩, e⟩ = ⟨els ++ post n e, n⟩ := by
    intro els
    rw [DeltaBuilder.build, post]
    by_cases he : e = n
    · rw [if_neg (by show ¬ e < n; omega), if_pos he, List.append_nil]
    · rw [if_pos (by show e < n; omega), if_neg he]
  simp only [Delta.simpleEdit, DeltaBuilder.replace, hp]
  by_cases hs : s = []
  · simp only [if_pos hs]
    exact congrArg some (hb _)
  · simp only [if_neg hs, Option.bind_eq_bind, Option.bind_some]
    refine congrArg some ((hb _).trans ?_)
    rw [List.append_assoc]

theorem isSimpleDelete_of_shape {i e n : Nat} (h1 : i < e) (h2 : e ≤ n) :
    Delta.isSimpleDelete ⟨pre i ++ post n e, n⟩ = true ∧ (Delta.summary ⟨pre i ++ post n e, n⟩).1 = (i, e) := by
  by_cases hi : i = 0 <;> by_cases he : e = n
  · simp [pre, post, hi, he, Delta.isSimpleDelete, Delta.summary]; omega
  · obtain ⟨k, rfl⟩ : ∃ k, e = k + 1 := ⟨e - 1, by omega⟩
    simp [pre, post, hi, he, Delta.isSimpleDelete, Delta.summary]
  · simp [pre, post, hi, he, Delta.isSimpleDelete, Delta.summary]; omega
  · simp [pre, post, hi, he, Delta.isSimpleDelete, Delta.summary]; omega

theorem asSimpleInsert_of_shape (i n : Nat) {s : List UInt8} :
    ¬ Delta.isSimpleDelete ⟨pre i ++ ([.insert s] ++ post n i), n⟩ = true ∧ Delta.asSimpleInsert ⟨pre i ++ ([.insert s] ++ post n i), n⟩ = some s ∧
      (Delta.summary ⟨pre i ++ ([.insert s] ++ post n i), n⟩).1 = (i, i) := by
  by_cases hi : i = 0 <;> by_cases he : i = n
  · subst hi; subst he; exact ⟨by simp [pre, post, Delta.isSimpleDelete], rfl, rfl⟩
  · subst hi; simp [pre, post, he, Delta.isSimpleDelete, Delta.summary, Delta.asSimpleInsert, Delta.asSimpleInsertTail]
  · subst he; simp [pre, post, hi, Delta.isSimpleDelete, Delta.summary, Delta.asSimpleInsert, Delta.asSimpleInsertTail]
  · simp [pre, post, hi, he, Delta.isSimpleDelete, Delta.summary, Delta.asSimpleInsert, Delta.asSimpleInsertTail]

end Plugin

end Xi
