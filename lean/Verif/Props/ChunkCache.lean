import Verif.Plugin.ChunkUpdateLemmas
import Verif.Props.Wrap

/-!
# C42: a plugin's cache always agrees with the document
-/

namespace Xi

open Plugin

/-- **C42.** An empty cache agrees with any document. -/
theorem C42_new (t : List UInt8) (ht : Utf8 t) (rev : Nat) : Coherent (ChunkCache.new t.length rev (t.count newline + 1)) t := by
  refine Held.coherent (A := []) (B := t) ⟨rfl, utf8_nil, utf8_nil, ht, rfl, rfl, rfl, ?_, ?_⟩ ?_ <;> simp [ChunkCache.new]

/-- **C42.** After an edit, simple or not, inside the chunk or not, the cache agrees with the new document. -/
theorem C42_update (c : ChunkCache) (t t' : List UInt8) (d : Delta UInt8) (hc : Coherent c t) (hd : d.WF) (hl : t.length = d.baseLen)
    (hw : WholeChars t d) (ha : d.apply t = some t') (rev : Nat) :
    ∃ c', c.update (some d) t'.length (t'.count newline + 1) rev = some c' ∧ Coherent c' t' ∧ c'.rev = rev :=
  update_spec hc hd hl hw ha rev

/-- **C42.** After an edit that is too large to be sent, the cache agrees with the new document. -/
theorem C42_update_none (c : ChunkCache) (t' : List UInt8) (ht : Utf8 t') (rev : Nat) :
    ∃ c', c.update none t'.length (t'.count newline + 1) rev = some c' ∧ Coherent c' t' ∧ c'.rev = rev :=
  ⟨_, rfl, held_clear ht, rfl⟩

/-- **C42.** An edit within the chunk, or right after it, is followed rather than forgotten: the text
before and after the place in the chunk is kept. -/
theorem C42_update_keeps (c : ChunkCache) (t t' s : List UInt8) (i e : Nat) (d : Delta UInt8) (hc : Coherent c t) (h1 : c.offset ≤ i)
    (h2 : i ≤ c.offset + c.contents.length) (hne : c.contents ≠ []) (hi : CharBoundary t i) (he : CharBoundary t e)
    (hse : s = [] ∧ i < e ∨ s ≠ [] ∧ i = e) (hd : Delta.simpleEdit i e s t.length = some d) (rev : Nat) :
    ∃ c', c.update (some d) t'.length (t'.count newline + 1) rev = some c' ∧ c'.offset = c.offset ∧
      c'.contents = c.contents.take (i - c.offset) ++ s ++ c.contents.drop (e - c.offset) := by
  obtain ⟨A, B, ht, hh⟩ := hc.held
  have hlen := boundary_le he
  rw [simpleEdit_shape hlen] at hd
  cases hd
  rcases hse with ⟨rfl, hlt⟩ | ⟨hs, rfl⟩
  · obtain ⟨k1, k2⟩ := isSimpleDelete_of_shape hlt hlen
    rw [ChunkCache.update, if_pos rfl, List.nil_append, updateText_delete hh ht (fun h => hne h.2) h1 h2 hlt hlen k1 k2 rfl hi he]
    exact ⟨_, rfl, rfl, rfl⟩
  · obtain ⟨k1, k2, k3⟩ := asSimpleInsert_of_shape i t.length (s := s)
    rw [ChunkCache.update, if_neg hs, updateText_insert hh ht (fun h => hne h.2) h1 h2 k1 k2 k3 rfl hi]
    exact ⟨_, rfl, rfl, rfl⟩

/-- **C42.** What the core sends is a part of the text that starts where it was asked for (at the
character that contains it), with the number of the first line and the distance from its start. -/
theorem C42_source (r : Rope) (hr : r.Balanced) (size : Nat) (hs : 4 ≤ size) :
    (∀ start, start ≤ r.text.length → ∃ d, pluginGetData r start .utf8 size = some (some d) ∧
      IsPrev (CharBoundary r.text) (start + 1) (some d.offset) ∧ d.chunk = part r.text d.offset (d.offset + d.chunk.length) ∧
      d.firstLine = (r.text.take d.offset).count newline ∧ d.firstLineOffset = sinceNewline (r.text.take d.offset) ∧
      (start < r.text.length → start < d.offset + d.chunk.length)) ∧
    (∀ n, n ≤ r.text.count newline + 1 → ∃ d, pluginGetData r n .line size = some (some d) ∧
      d.offset = lineBegin r.text n ∧ d.chunk = part r.text d.offset (d.offset + d.chunk.length) ∧
      d.firstLine = (r.text.take d.offset).count newline ∧ d.firstLineOffset = sinceNewline (r.text.take d.offset)) ∧
    (∀ start, r.text.length < start → pluginGetData r start .utf8 size = some none) ∧
    (∀ n, r.text.count newline + 1 < n → pluginGetData r n .line size = some none) := by
  have good : ∀ {o : Nat} {d : GetData} {A B : List UInt8}, Good r.text o d A B → d.offset = o ∧ d.chunk = part r.text d.offset (d.offset + d.chunk.length) ∧
      d.firstLine = (r.text.take d.offset).count newline ∧ d.firstLineOffset = sinceNewline (r.text.take d.offset) := by
    intro o d A B h
    have e1 : r.text.take d.offset = A := by rw [h.text, h.offset, List.append_assoc, List.take_left' h.len]
    have e2 : r.text.take (d.offset + d.chunk.length) = A ++ d.chunk := by
      rw [h.text, h.offset, List.take_left' (by rw [List.length_append, h.len])]
    refine ⟨h.offset, ?_, by rw [e1]; exact h.firstLine, by rw [e1]; exact h.firstLineOffset⟩
    rw [part, e2, h.offset, List.drop_left' h.len]
  refine ⟨fun start h => ?_, fun n h => ?_, fun start h => ?_, fun n h => ?_⟩
  · obtain ⟨o, d, A, B, g1, g2, g3, g4⟩ := pluginGetData_utf8 hr hs h
    obtain ⟨k1, k2, k3, k4⟩ := good g2
    refine ⟨d, g1, ?_, k2, k3, k4, fun hlt => ?_⟩
    · rw [k1]
      refine ⟨by omega, ?_, fun k h1 h2 => g4 k h1 (by omega)⟩
      rw [← g2.len, g2.text, List.append_assoc]
      exact charBoundary_ends g2.ua (utf8_append g2.uc g2.ub)
    · rw [k1]; exact g2.reach start g3 hlt g4
  · obtain ⟨d, A, B, g1, g2⟩ := pluginGetData_line hr hs h
    exact ⟨d, g1, good g2⟩
  · rw [pluginGetData, TextUnit.resolveOffset, Rope.len_eq hr, if_pos h]; rfl
  · rw [pluginGetData, TextUnit.resolveOffset, Rope.measure_lines hr, if_pos h]; rfl

section

variable {source : Source} {size : Nat} {r : Rope} {c : ChunkCache}

/-- **C42.** A line read through the cache is the line of the document, with its newline. -/
theorem C42_get_line (h : Reading source size r c.rev) (hc : Coherent c r.text) (n : Nat) :
    ReadOk source size r c (c.getLine source size n)
      (if n ≤ r.text.count newline then some (part r.text (lineBegin r.text n) (lineBegin r.text (n + 1))) else none) := by
  split
  · exact getLine_spec h hc (by omega)
  · rw [ChunkCache.getLine, hc.numLines, if_pos (by omega)]
    exact ⟨c, none, rfl, ⟨hc, rfl⟩, .inl rfl⟩

/-- **C42.** A region read through the cache is that of the document. -/
theorem C42_get_region (h : Reading source size r c.rev) (hc : Coherent c r.text) (interval : Bounds) (iv : Interval)
    (hi : interval.intoInterval r.text.length = some iv) (hle : iv.start ≤ iv.stop) (h1 : CharBoundary r.text iv.start) (h2 : CharBoundary r.text iv.stop) :
    ReadOk source size r c (c.getRegion source size interval) (some (part r.text iv.start iv.stop)) :=
  getRegion_spec h hc (by rw [hc.bufSize]; exact hi) hle h1 h2

/-- **C42.** The document read through the cache is the document. -/
theorem C42_get_document (h : Reading source size r c.rev) (hc : Coherent c r.text) :
    ReadOk source size r c (c.getDocument source size) (some r.text) := by
  rw [ChunkCache.getDocument, hc.bufSize]
  have := documentLoop_spec h (r.text.length + 1) (c := c) (cur := 0) rfl hc ((boundary_iff_spec (Rope.text_utf8 h.bal)).1 boundary_zero) (by omega)
  simpa using this

/-- **C42.** The start of a line, from the cache or from the peer; the recursion is at most one deep. -/
theorem C42_offset_of_line (h : Reading source size r c.rev) (hc : Coherent c r.text) (n : Nat) :
    ReadOk source size r c (c.offsetOfLine source size n) (if n ≤ r.text.count newline + 1 then some (lineBegin r.text n) else none) := by
  split
  · exact offsetOfLine_spec h hc (by assumption)
  · rw [ChunkCache.offsetOfLine, ChunkCache.offsetOfLineFrom, hc.numLines, if_pos (by omega)]
    exact ⟨c, none, rfl, ⟨hc, rfl⟩, .inl rfl⟩

/-- **C42.** The line that contains an offset. -/
theorem C42_line_of_offset (h : Reading source size r c.rev) (hc : Coherent c r.text) (off : Nat) :
    ReadOk source size r c (c.lineOfOffset source size off) (if off ≤ r.text.length then some ((r.text.take off).count newline) else none) := by
  split
  · exact lineOfOffset_spec h hc (by assumption)
  · rw [ChunkCache.lineOfOffset, hc.bufSize, if_pos (by omega)]
    exact ⟨c, none, rfl, ⟨hc, rfl⟩, .inl rfl⟩

end

/-- One operation on the cache of a document. -/
inductive ChunkStep : ChunkCache → Rope → ChunkCache → Rope → Prop
  /-- an edit is announced -/
  | update {c : ChunkCache} {r r' : Rope} {d : Delta UInt8} {c' : ChunkCache} {rev : Nat} : r'.Balanced → d.WF → r.text.length = d.baseLen → WholeChars r.text d →
      d.apply r.text = some r'.text → c.update (some d) r'.text.length (r'.text.count newline + 1) rev = some c' → ChunkStep c r c' r'
  /-- an edit is announced, but not what it is -/
  | unknown {c : ChunkCache} {r r' : Rope} {c' : ChunkCache} {rev : Nat} : r'.Balanced → c.update none r'.text.length (r'.text.count newline + 1) rev = some c' →
      ChunkStep c r c' r'
  | line {c : ChunkCache} {r : Rope} {source : Source} {size n : Nat} {c' : ChunkCache} {x : Option (List UInt8)} : Reading source size r c.rev →
      c.getLine source size n = some (c', x) → ChunkStep c r c' r
  | region {c : ChunkCache} {r : Rope} {source : Source} {size : Nat} {interval : Bounds} {iv : Interval} {c' : ChunkCache} {x : Option (List UInt8)} :
      Reading source size r c.rev → interval.intoInterval r.text.length = some iv → iv.start ≤ iv.stop → CharBoundary r.text iv.start → CharBoundary r.text iv.stop →
      c.getRegion source size interval = some (c', x) → ChunkStep c r c' r
  | document {c : ChunkCache} {r : Rope} {source : Source} {size : Nat} {c' : ChunkCache} {x : Option (List UInt8)} : Reading source size r c.rev →
      c.getDocument source size = some (c', x) → ChunkStep c r c' r
  | offset {c : ChunkCache} {r : Rope} {source : Source} {size n : Nat} {c' : ChunkCache} {x : Option Nat} : Reading source size r c.rev →
      c.offsetOfLine source size n = some (c', x) → ChunkStep c r c' r
  | lineOf {c : ChunkCache} {r : Rope} {source : Source} {size off : Nat} {c' : ChunkCache} {x : Option Nat} : Reading source size r c.rev →
      c.lineOfOffset source size off = some (c', x) → ChunkStep c r c' r

/-- A cache and its document after any number of operations. -/
inductive ChunkHistory : ChunkCache → Rope → Prop
  | new {r : Rope} {rev : Nat} : r.Balanced → ChunkHistory (ChunkCache.new r.text.length rev (r.text.count newline + 1)) r
  | step {c c' : ChunkCache} {r r' : Rope} : ChunkHistory c r → ChunkStep c r c' r' → ChunkHistory c' r'

theorem readOk_coherent {α : Type} {source : Source} {size : Nat} {r : Rope} {c c' : ChunkCache} {res : Option (ChunkCache × Option α)} {v x : Option α}
    (h : ReadOk source size r c res v) (e : res = some (c', x)) : Coherent c' r.text := by
  obtain ⟨c1, x1, h1, h2, -⟩ := h
  rw [h1] at e
  cases e
  exact h2.coh

/-- **C42.** After any sequence of edits and reads, with a peer that may fail to answer, the cache agrees with the document. -/
theorem C42_history (c : ChunkCache) (r : Rope) (h : ChunkHistory c r) : Coherent c r.text := by
  induction h with
  | new hr => exact C42_new _ (Rope.text_utf8 hr) _
  | step _ hs ih =>
    cases hs with
    | update _ h2 h3 h4 h5 h6 =>
      obtain ⟨c1, g1, g2, -⟩ := C42_update _ _ _ _ ih h2 h3 h4 h5 _
      rw [g1] at h6; cases h6; exact g2
    | unknown h1 h2 =>
      obtain ⟨c1, g1, g2, -⟩ := C42_update_none _ _ (Rope.text_utf8 h1) _
      rw [g1] at h2; cases h2; exact g2
    | line h1 h2 => exact readOk_coherent (C42_get_line h1 ih _) h2
    | region h1 h2 h3 h4 h5 h6 => exact readOk_coherent (C42_get_region h1 ih _ _ h2 h3 h4 h5) h6
    | document h1 h2 => exact readOk_coherent (C42_get_document h1 ih) h2
    | offset h1 h2 => exact readOk_coherent (C42_offset_of_line h1 ih _) h2
    | lineOf h1 h2 => exact readOk_coherent (C42_line_of_offset h1 ih _) h2

/-- `n` turns of the loop of `get_region` without an answer. -/
inductive RegionTurns (source : Source) (size start stop : Nat) : Nat → ChunkCache → ChunkCache → Prop
  | zero {c : ChunkCache} : RegionTurns source size start stop 0 c c
  | succ {n : Nat} {c c1 c2 : ChunkCache} : ChunkCache.regionStep source size start stop c = some (.inr c1) → RegionTurns source size start stop n c1 c2 →
      RegionTurns source size start stop (n + 1) c c2

/-- **C42, limit.** A region that ends after the end of the document: the loop asks for more for ever. -/
theorem C42_get_region_beyond {source : Source} {size start stop : Nat} {r : Rope} {rev : Nat} (h : Reading source size r rev) (ha : Answers source size rev r)
    (hs : CharBoundary r.text start) (hstop : r.text.length < stop) :
    ∀ (n : Nat) (c : ChunkCache), c.rev = rev → Coherent c r.text → c.offset ≤ start → start ≤ c.offset + c.contents.length →
      ∃ c', RegionTurns source size start stop n c c'
  | 0, c, _, _, _, _ => ⟨c, .zero⟩
  | n + 1, c, hrev, hc, h1, h2 => by
    obtain ⟨A, B, ht, hh⟩ := hc.held
    have hlen := held_len hh ht
    obtain ⟨s, rfl⟩ : ∃ s, start = c.offset + s := ⟨start - c.offset, by omega⟩
    obtain ⟨e, rfl⟩ : ∃ e, stop = c.offset + e := ⟨stop - c.offset, by omega⟩
    obtain ⟨c1, g1, g2, g3, g4⟩ := dropTo_spec hh ((inner_boundary hh ht (by omega)).1 hs)
    have ht1 : r.text = A ++ c.contents.take s ++ c1.contents ++ B := by
      rw [g2, List.append_assoc A, List.take_append_drop]; exact ht
    have hoff : c1.offset = c.offset + s := by
      rw [g3.offset, List.length_append, List.length_take, hh.offset]; omega
    have hr1 : Reading source size r c1.rev := by rw [g4, hrev]; exact h
    rcases fetchMore_spec hr1 g3 ht1 with ⟨_, k2⟩ | ⟨c2, B1, B2, k1, k2, k3, k4, k5, -⟩
    · exact absurd ha (by rw [← hrev, ← g4]; exact k2)
    · have hc2 : c2.offset = c1.offset := by rw [k4.offset, g3.offset]
      obtain ⟨c', hc'⟩ := C42_get_region_beyond h ha hs hstop n c2 (by rw [k5, g4, hrev]) (k4.coherent (by rw [k2, ht1, k3]; simp)) (by omega) (by omega)
      refine ⟨c', .succ ?_ hc'⟩
      rw [ChunkCache.regionStep]
      simp only [checkedSub_add, Option.bind_eq_bind, Option.bind_some]
      rw [if_neg (by omega), g1]
      simp only [Option.bind_some, k1]
      rfl

/-! ## Examples -/

/-- Three lines; the last character has two bytes. -/
def chunkDoc : Rope := smallRope "ab\ncd\né"

theorem chunkDoc_balanced : chunkDoc.Balanced := small_balanced (by decide +kernel)

/-- A peer that always answers. -/
def faithful (r : Rope) : Source := fun start unit size _ => pluginGetData r start unit size

theorem faithful_reading : Reading (faithful chunkDoc) 4 chunkDoc 7 := ⟨chunkDoc_balanced, Nat.le_refl _, fun _ _ => .inl rfl⟩

/-- A peer that never answers is a case of the theorems. -/
example : Reading (fun _ _ _ _ => some none) 4 chunkDoc 7 := ⟨chunkDoc_balanced, Nat.le_refl _, fun _ _ => .inr rfl⟩

theorem faithful_answers : Answers (faithful chunkDoc) 4 7 chunkDoc := fun _ _ => rfl

/-- The cache with the second line. -/
def chunkExample : ChunkCache := ⟨3, [99, 100, 10], 1, 0, [3], 8, 3, 7⟩

theorem chunkExample_coherent : Coherent chunkExample chunkDoc.text :=
  Held.coherent (A := "ab\n".toList.flatMap String.utf8EncodeChar) (B := "é".toList.flatMap String.utf8EncodeChar)
    ⟨by decide +kernel, ⟨_, rfl⟩, ⟨"cd\n".toList, by decide +kernel⟩, ⟨_, rfl⟩, by decide +kernel, by decide +kernel, by decide +kernel, by decide +kernel, by decide +kernel⟩
    (by rw [chunkDoc, small_text]; decide +kernel)

/-- The last line, which is fetched. -/
example : (chunkExample.getLine (faithful chunkDoc) 4 2).map (·.2) = some (some [0xC3, 0xA9]) := by decide +kernel

/-- The second, from the cache. -/
example : (chunkExample.getLine (fun _ _ _ _ => some none) 4 1).map (·.2) = some (some [99, 100, 10]) := by decide +kernel

example : (chunkExample.getRegion (faithful chunkDoc) 4 (.range 1 8)).map (·.2) = some (some [98, 10, 99, 100, 10, 0xC3, 0xA9]) := by decide +kernel

example : (chunkExample.getDocument (faithful chunkDoc) 4).map (·.2) = some (some [97, 98, 10, 99, 100, 10, 0xC3, 0xA9]) := by decide +kernel

example : (chunkExample.offsetOfLine (faithful chunkDoc) 4 3).map (·.2) = some (some 8) := by decide +kernel

example : (chunkExample.lineOfOffset (faithful chunkDoc) 4 7).map (·.2) = some (some 2) := by decide +kernel

/-- An insertion of a line in the chunk. -/
def chunkEdit : Delta UInt8 := ⟨[.copy 0 4, .insert [120, 10, 121], .copy 4 8], 8⟩

example : chunkEdit.WF ∧ chunkEdit.baseLen = chunkDoc.text.length ∧ chunkEdit.apply chunkDoc.text = some ("ab\ncx\nyd\né".toList.flatMap String.utf8EncodeChar) := by
  rw [chunkDoc, small_text]; decide +kernel

example : WholeChars chunkDoc.text chunkEdit := by
  intro el hel
  simp only [chunkEdit, List.mem_cons, List.not_mem_nil, or_false] at hel
  rcases hel with rfl | rfl | rfl
  · exact ⟨small_boundary (by decide +kernel), small_boundary (by decide +kernel)⟩
  · exact ⟨"x\ny".toList, by decide +kernel⟩
  · exact ⟨small_boundary (by decide +kernel), small_boundary (by decide +kernel)⟩

example : Delta.simpleEdit 4 4 [120, 10, 121] 8 = some chunkEdit := by decide +kernel

example : chunkExample.update (some chunkEdit) 11 4 8 = some ⟨3, [99, 120, 10, 121, 100, 10], 1, 0, [3, 6], 11, 4, 8⟩ := by decide +kernel

/-- A history: the cache is filled by reading a line, then follows the edit. -/
example : ∃ c c' : ChunkCache, ChunkHistory c chunkDoc ∧ c.contents ≠ [] ∧ ChunkHistory c' (smallRope "ab\ncx\nyd\né") ∧ c'.contents = [99, 120, 10, 121, 100, 10, 0xC3, 0xA9] := by
  have hline : (ChunkCache.new 8 7 3).getLine (faithful chunkDoc) 8 1 = some (⟨3, [99, 100, 10, 0xC3, 0xA9], 1, 0, [3], 8, 3, 7⟩, some [99, 100, 10]) := by decide +kernel
  have hnew : ChunkHistory (ChunkCache.new 8 7 3) chunkDoc := by
    have := ChunkHistory.new (rev := 7) chunkDoc_balanced
    have e : chunkDoc.text.length = 8 ∧ chunkDoc.text.count newline + 1 = 3 := by rw [chunkDoc, small_text]; decide +kernel
    rwa [e.1, e.2] at this
  have h1 : ChunkHistory ⟨3, [99, 100, 10, 0xC3, 0xA9], 1, 0, [3], 8, 3, 7⟩ chunkDoc :=
    .step hnew (.line ⟨chunkDoc_balanced, by decide, fun _ _ => .inl rfl⟩ hline)
  have e2 : (smallRope "ab\ncx\nyd\né").text.length = 11 ∧ (smallRope "ab\ncx\nyd\né").text.count newline + 1 = 4 := by rw [small_text]; decide +kernel
  refine ⟨_, ⟨3, [99, 120, 10, 121, 100, 10, 0xC3, 0xA9], 1, 0, [3, 6], 11, 4, 8⟩, h1, by decide, .step h1 (.update (d := chunkEdit) (rev := 8) (small_balanced (by decide +kernel)) (by decide) ?_ ?_ ?_ ?_), rfl⟩
  · rw [chunkDoc, small_text]; decide +kernel
  · intro el hel
    simp only [chunkEdit, List.mem_cons, List.not_mem_nil, or_false] at hel
    rcases hel with rfl | rfl | rfl
    · exact ⟨small_boundary (by decide +kernel), small_boundary (by decide +kernel)⟩
    · exact ⟨"x\ny".toList, by decide +kernel⟩
    · exact ⟨small_boundary (by decide +kernel), small_boundary (by decide +kernel)⟩
  · rw [chunkDoc, small_text, small_text]; decide +kernel
  · rw [e2.1, e2.2]; decide +kernel

/-- The region up to the byte after the last: the answer never comes. -/
example : ∀ n, ∃ c', RegionTurns (faithful chunkDoc) 4 3 9 n chunkExample c' := fun n =>
  C42_get_region_beyond faithful_reading faithful_answers (start := 3) (stop := 9) (small_boundary (by decide +kernel))
    (by rw [chunkDoc, small_text]; decide +kernel) n chunkExample rfl chunkExample_coherent (by decide) (by decide)

end Xi
