import Verif.Rope.PanicLemmas
import Verif.Rope.LisLemmas
import Verif.Props.Find
import Verif.Props.Engine

/-!
# Comparing and diffing ropes: properties C37, C60, C61, C62
-/

namespace Xi

open Diff Find

/-! ## C60: the vectorised comparisons -/

/-- **C60.** `ne_idx_avx` and `ne_idx_sse` find the first difference, whatever
bytes lie in memory behind the two slices. -/
theorem C60_forward (junk1 junk2 : Nat → List UInt8) (one two : List UInt8) :
    IsFirstDifference one two (Compare.neIdxVector 32 junk1 junk2 one two) ∧
    IsFirstDifference one two (Compare.neIdxVector 16 junk1 junk2 one two) :=
  ⟨Compare.neIdxVector_spec (by decide) _ _ _ _, Compare.neIdxVector_spec (by decide) _ _ _ _⟩

/-- **C60.** So does the fallback; all three agree. -/
theorem C60_forward_agree (junk1 junk2 : Nat → List UInt8) (one two : List UInt8) :
    IsFirstDifference one two (Compare.neIdxFallback one two) ∧
    Compare.neIdxVector 32 junk1 junk2 one two = Compare.neIdxFallback one two ∧
    Compare.neIdxVector 16 junk1 junk2 one two = Compare.neIdxFallback one two :=
  ⟨Compare.neIdxFallback_spec _ _, (Compare.neIdxFallback_eq (C60_forward junk1 junk2 one two).1).symm,
    (Compare.neIdxFallback_eq (C60_forward junk1 junk2 one two).2).symm⟩

/-- **C60.** `ne_idx_rev_sse` does not panic, finds the first difference from the
end, and agrees with the fallback. -/
theorem C60_backward (one two : List UInt8) :
    ∃ r, Compare.neIdxRevSse one two = some r ∧ IsFirstDifference one.reverse two.reverse r ∧ r = Compare.neIdxRevFallback one two := by
  obtain ⟨r, h1, h2⟩ := Compare.neIdxRevSse_spec one two
  exact ⟨r, h1, h2, (Compare.neIdxFallback_eq h2).symm⟩

/-- A difference in the second stride; bytes behind the slices that differ; and a
difference found from the end, 18 bytes before it. -/
example : Compare.neIdxVector 16 (fun _ => [1]) (fun _ => [2]) (List.replicate 20 7) (List.replicate 18 7 ++ [8, 7]) = some 18 ∧
    Compare.neIdxVector 16 (fun _ => [1]) (fun _ => [2]) (List.replicate 20 7) (List.replicate 20 7) = none ∧
    Compare.neIdxRevSse (9 :: List.replicate 18 7) (5 :: 8 :: List.replicate 18 7) = some (some 18) := by decide +kernel

/-! ## C61: the scanner -/

/-- **C61.** `find_ne_char` gives the length of the longest common run of whole
characters after the two offsets, or `stop` if that is less, and leaves both cursors
in use. -/
theorem C61_forward {rb rt : Rope} {s : RopeScanner} (hb : Find.Alive rb s.base) (ht : Find.Alive rt s.target) {bo to : Nat}
    (h1 : CharBoundary rb.text bo) (h2 : CharBoundary rt.text to) (stop : Option Nat) :
    ∃ s' r R, s.findNeChar bo to stop = some (s', r) ∧ Find.Alive rb s'.base ∧ Find.Alive rt s'.target ∧
      IsLargest (CommonPrefix (rb.text.drop bo) (rt.text.drop to)) R ∧ r = (match stop with | none => R | some k => min k R) := by
  obtain ⟨s', r, R, e, g1, g2, g3, g4⟩ := RopeScanner.findNeChar_spec hb ht h1 h2 stop
  refine ⟨s', r, R, e, g1, g2, g3, ?_⟩
  rw [g4]
  cases stop <;> simp [RopeScanner.minStop, Nat.min_comm]

/-- **C61**, in part: `find_ne_char_back` gives the length of a common run of bytes
before the two offsets; it is the longest common run of whole characters if no
character of the one text ends with the same byte as a different character of the
other. -/
theorem C61_backward_partial {rb rt : Rope} {s : RopeScanner} (hb : Find.Alive rb s.base) (ht : Find.Alive rt s.target) {bo to : Nat}
    (h1 : CharBoundary rb.text bo) (h2 : CharBoundary rt.text to) (stop : Option Nat) :
    ∃ s' r R, s.findNeCharBack bo to stop = some (s', r) ∧ Find.Alive rb s'.base ∧ Find.Alive rt s'.target ∧
      SameSuffix (rb.text.take bo) (rt.text.take to) R ∧
      (LastBytesApart rb.text rt.text → IsLargest (CommonSuffix (rb.text.take bo) (rt.text.take to)) R) ∧
      r = (match stop with | none => R | some k => min k R) := by
  obtain ⟨s', r, R, e, g1, g2, g3, g4, g5⟩ := RopeScanner.findNeCharBack_spec hb ht h1 h2 stop
  refine ⟨s', r, R, e, g1, g2, g3, g4, ?_⟩
  rw [g5]
  cases stop <;> simp [RopeScanner.minStop, Nat.min_comm]

/-- **C61.** A new scanner is in use, for ropes of any shape. -/
theorem C61_new {base target : Rope} (hb : base.Balanced) (ht : target.Balanced) :
    ∃ s, RopeScanner.new base target = some s ∧ Find.Alive base s.base ∧ Find.Alive target s.target :=
  RopeScanner.new_spec hb ht

/-- **C61.** `find_min_diff_range` does not panic; the common prefix it finds is the
longest in whole characters, the common suffix does not overlap it, in neither text. -/
theorem C61_min_diff_range {base target : Rope} (hb : base.Balanced) (ht : target.Balanced) :
    ∃ start d, (do (← RopeScanner.new base target).findMinDiffRange) = some (start, d) ∧
      IsLargest (CommonPrefix base.text target.text) start ∧ SameSuffix base.text target.text d ∧
      start + d ≤ base.text.length ∧ start + d ≤ target.text.length := by
  obtain ⟨s, start, d, e1, e2, h1, h2, h3, h4, -⟩ := findMinDiffRange_spec hb ht
  exact ⟨start, d, by simp [e1, e2], h1, h2, h3, h4⟩

/-- **C61** refuted: "é" and "Щ" have no character in common, but the common suffix
found is one byte, half a character. -/
theorem C61_backward_refuted :
    ((RopeScanner.new (.fromLeaf (enc ['é']) : Rope) (.fromLeaf (enc ['Щ']))).bind (fun s => s.findNeCharBack 2 2 none)).map (·.2) = some 1 ∧
    IsLargest (CommonSuffix (enc ['é']) (enc ['Щ'])) 0 := by
  refine ⟨by decide +kernel, ⟨⟨by decide +kernel, by decide +kernel, by decide +kernel⟩, ⟨[], by decide +kernel⟩⟩, ?_⟩
  rintro r ⟨⟨h1, h2, h3⟩, h4⟩
  change r ≤ 2 at h1
  match r, h1 with
  | 0, _ => exact Nat.le_refl 0
  | 1, _ => exact absurd (utf8_head (b := 0xA9) (s := []) h4) (by decide)
  | 2, _ => exact absurd h3 (by decide +kernel)

/-! ## C37: the diff -/

/-- The delta that `compute_delta` gives, applied to the base. -/
def reload (base target : Rope) : Option Rope := do
  let (els, n) ← computeDelta base target
  applyTree els n base

/-- **C37.** Applying a computed difference of two texts to the first gives the second,
for all pairs of texts (but see below on whether it can be computed). -/
theorem C37_apply {base target : Rope} (hb : base.Balanced) (ht : target.Balanced) {els : List (TreeDeltaElement (List UInt8) RopeInfo)} {n : Nat}
    (h : computeDelta base target = some (els, n)) :
    ∃ r, applyTree els n base = some r ∧ r.text = target.text ∧ r.Balanced := by
  obtain ⟨e1, h1, h2⟩ := computeDelta_any hb ht h
  simp only at e1 h1 h2
  rw [List.take_length] at h2
  rw [e1, Rope.len_eq hb]
  exact C01_apply_delta els base target.text hb h1 h2

/-- **C37**, in part: `compute_delta` does not panic, and its delta makes the base
into the target, if no character of the one ends with the same byte as a different
character of the other. -/
theorem C37_apply_partial {base target : Rope} (hb : base.Balanced) (ht : target.Balanced) (hd : LastBytesApart base.text target.text) :
    ∃ r, reload base target = some r ∧ r.text = target.text ∧ r.Balanced := by
  obtain ⟨els, e, h1, h2⟩ := computeDelta_spec hb ht hd
  rw [List.take_length] at h2
  obtain ⟨r, e2, h3, h4⟩ := C01_apply_delta els base target.text hb h1 h2
  refine ⟨r, ?_, h3, h4⟩
  simp only [reload, e, Option.bind_eq_bind, Option.bind_some]
  rw [Rope.len_eq hb]
  exact e2

/-- **C37** refuted: `compute_delta` of "é" and "Щ" panics. -/
theorem C37_panic_refuted : (computeDelta (.fromLeaf (enc ['é'])) (.fromLeaf (enc ['Щ']))).isNone := by decide +kernel

/-- The delta, with texts in place of trees. -/
def plainDelta (els : List (TreeDeltaElement (List UInt8) RopeInfo)) (baseLen : Nat) : Delta UInt8 := ⟨els.map TreeDeltaElement.plain, baseLen⟩

/-- **C37**, in part: if the delta copies ascending ranges of the base, as deltas are
meant to, then committing it to an engine whose text is the base, as `Editor::reload`
does, makes the text the target. -/
theorem C37_commit_partial {tok : RevId → Nat} {e : Engine UInt8} (he : Engine.Reach tok e) {id : RevId} (hid : e.getHeadRevId = some id)
    (p g : Nat) (hg : e.undoneGroups.contains g = false) {base target : Rope} (hb : base.Balanced) (ht : target.Balanced)
    (htext : e.text = base.text) {els : List (TreeDeltaElement (List UInt8) RopeInfo)} {n : Nat} (h : computeDelta base target = some (els, n))
    (hw : (plainDelta els n).WF) :
    ∃ e', e.tryEditRev tok p g (tok id) (plainDelta els n) = some (.ok e') ∧ e'.text = target.text := by
  obtain ⟨e1, h1, h2⟩ := computeDelta_any hb ht h
  simp only at e1 h1 h2
  subst e1
  obtain ⟨e', e2, h3, -⟩ := C18_head_edit he hid p g _ hw (by rw [htext]; exact Rope.len_eq hb)
  refine ⟨e', e2, ?_⟩
  have := h3 hg
  rw [htext, plainDelta, Delta.apply, h2, List.take_length] at this
  exact (Option.some.inj this).symm

/-- A line of 37 characters. -/
def longLine : List Char := List.replicate 36 'a' ++ ['\n']

/-- What `Editor::reload` leaves as the text of a new document with the text `a` that is
reloaded with the text `b`. -/
def reloaded (a b : List Char) : Option (List UInt8) := do
  let (els, n) ← computeDelta (.fromLeaf (enc a)) (.fromLeaf (enc b))
  let e ← Engine.new exTok (enc a)
  let id ← e.getHeadRevId
  let e ← e.editRev exTok 1 1 (exTok id) (plainDelta els n)
  return e.text

/-- **C37** refuted: reloading a file in which a long line has been repeated loses the
second of the two.  The delta copies the same range of the base twice. -/
theorem C37_commit_refuted :
    (computeDelta (.fromLeaf (enc (longLine ++ ['z']))) (.fromLeaf (enc (longLine ++ 'f' :: '\n' :: longLine ++ ['b'])))).map
      (fun x => (plainDelta x.1 x.2).els) = some [.copy 0 37, .insert (enc ['f', '\n']), .copy 0 37, .insert (enc ['b'])] ∧
    reloaded (longLine ++ ['z']) (longLine ++ 'f' :: '\n' :: longLine ++ ['b']) = some (enc (longLine ++ ['f', '\n', 'b'])) := by
  decide +kernel

/-- Plain ASCII text shares no last byte with a character that it does not have. -/
theorem lastBytesApart_ascii {s t : List UInt8} (h : ∀ b ∈ s, b.toNat < 128) : LastBytesApart s t := by
  rintro c d ⟨x, y, hs, -, -⟩ - hcd
  obtain ⟨b, r, e1, h1, h2, h3⟩ := encode_shape c
  obtain ⟨b', r', f1, g1, g2, g3⟩ := encode_shape d
  have hb : b.toNat < 128 := h b (by rw [hs, e1]; simp)
  have hr : r = [] := by
    simp [lenOfFirst, hb] at h3
    exact h3
  subst hr
  rw [e1, f1] at hcd
  have hr' : r' = [] := by
    cases hl : r'.getLast? with
    | none => exact List.getLast?_eq_none_iff.1 hl
    | some z =>
      exfalso
      have hz := g2 z (List.mem_of_getLast? hl)
      simp [List.getLast?_cons, hl] at hcd
      subst hcd
      rw [h1] at hz
      cases hz
  subst hr'
  have : String.utf8EncodeChar c = String.utf8EncodeChar d := by
    rw [e1, f1]
    simpa using hcd
  exact Cursor.encode_inj (s := []) (t := []) (by rw [this])

/-- A paragraph is moved: the diff finds it by its long line. -/
example : LastBytesApart (enc ('x' :: '\n' :: longLine ++ ['z'])) (enc ('y' :: 'y' :: '\n' :: longLine ++ ['é', 'b'])) ∧
    ((computeDelta (.fromLeaf (enc ('x' :: '\n' :: longLine ++ ['z']))) (.fromLeaf (enc ('y' :: 'y' :: '\n' :: longLine ++ ['é', 'b'])))).map
      (fun x => (plainDelta x.1 x.2).els)) = some [.insert (enc ['y', 'y']), .copy 1 39, .insert (enc ['é', 'b'])] ∧
    (⟨[.insert (enc ['y', 'y']), .copy 1 39, .insert (enc ['é', 'b'])], 40⟩ : Delta UInt8).WF ∧
    reloaded ('x' :: '\n' :: longLine ++ ['z']) ('y' :: 'y' :: '\n' :: longLine ++ ['é', 'b']) = some (enc ('y' :: 'y' :: '\n' :: longLine ++ ['é', 'b'])) :=
  ⟨lastBytesApart_ascii (by decide +kernel), by decide +kernel, by decide +kernel, by decide +kernel⟩

/-! ## C62: the longest increasing subsequence -/

/-- **C62.** `longest_increasing_region_set` does not panic; what it gives is in the same
order as the matches, strictly increasing in the base, and no choice of matches that is
so is longer. -/
theorem C62_longest {items : List (Nat × Nat)} (h : items ≠ []) :
    ∃ r, longestIncreasing items = some r ∧ r.Sublist items ∧ r.Pairwise (fun a b => a.2 < b.2) ∧
      ∀ s : List (Nat × Nat), s.Sublist items → s.Pairwise (fun a b => a.2 < b.2) → s.length ≤ r.length :=
  longestIncreasing_spec h

/-- **C62** refuted for no matches at all: then it panics.  (It is not called so.) -/
theorem C62_empty_refuted : longestIncreasing [] = none := by decide

example : longestIncreasing [(0, 8), (1, 1), (2, 6), (3, 2), (4, 6), (5, 3), (6, 7), (7, 0)] = some [(1, 1), (3, 2), (5, 3), (6, 7)] := by
  decide +kernel

end Xi
