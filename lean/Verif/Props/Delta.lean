import Verif.Rope.DeltaPosLemmas
import Verif.Rope.MultisetReach

/-!
# Properties C11-C17: edits (deltas)

`Delta.WF`, `Delta.result` and the other specification notions are in
`Verif/Spec/Delta.lean`.
-/

namespace Xi

variable {α : Type}

/-! ### C11 -/

/-- **C11.** Splitting a well-formed edit into an insertion edit and a deleted
subset never panics and loses nothing: inserting first and then removing the
deleted positions (shifted past the insertions) is the same as applying the
edit, the insertions alone keep the whole base text, and the deleted positions
are exactly those no copy covers. -/
theorem C11_factor_apply (d : Delta α) (h : d.WF) (base : List α) (hl : base.length = d.baseLen) :
    ∃ ins del I del' t, d.factor = some (ins, del) ∧ ins.WF ∧
      ins.apply base = some t ∧
      ins.insertedSubset = some I ∧ I.deleteFrom t = some base ∧
      del.transformExpand I = some del' ∧ del'.deleteFrom t = some (d.result base) ∧
      d.apply base = some (d.result base) ∧
      ∀ j < base.length, del.counts[j]? = some (if coveredAt d.els j then 0 else 1) := by
  obtain ⟨ins, del, I, s, h1, h2, h3, h4, h5, h6, h7⟩ := d.factor_spec base h hl
  obtain ⟨Is, g1, g2, g3⟩ := h2.insertedSubset h3
  have hz := h2.zeros
  have hs := h2.length
  obtain ⟨del', k1, k2, k3⟩ := Subset.transformExpand_spec h4 g2 (by rw [g3, h5, hz])
  refine ⟨ins, del, Is, del', weave I base s, h1, ⟨h2.base ▸ h2.contig, h3⟩, h2.apply hl, g1, ?_, k1, ?_,
    d.apply_spec base h hl, ?_⟩
  · have hw := weave_length I base s (by omega) (by omega)
    rw [Subset.deleteFrom_spec _ _ (by rw [g3, hw]), g3, keep_weave I base s (by omega) (by omega)]
  · have hw := weave_length I base s (by omega) (by omega)
    rw [Subset.deleteFrom_spec _ _ (by rw [k3, g3, hw]; simp), k3, g3, h7]
  · intro j hj
    rw [h6]
    have := delMask_spec h j (Nat.zero_le _) (by omega)
    simpa using this

/-- `hello world` with `o` replaced by `0` and `!` appended. -/
example : let d : Delta Char := ⟨[.copy 0 4, .insert ['0'], .copy 5 11, .insert ['!']], 11⟩
    d.WF ∧ d.result "hello world".toList = "hell0 world!".toList := by decide

/-! ### C12 -/

/-- **C12.** For any union text and any two reachable deletion sets over it, the
edit synthesised from the deleted text of the first is well formed and takes
the text visible under the first to the text visible under the second. -/
theorem C12_synthesize (f t : Subset) (hf : f.Reach) (U : List α)
    (h1 : f.counts.length = U.length) (h2 : t.counts.length = U.length) :
    ∃ fc tombs text d, f.complement = some fc ∧ fc.deleteFrom U = some tombs ∧
      f.deleteFrom U = some text ∧ Delta.synthesize tombs f t = some d ∧ d.WF ∧
      d.baseLen = text.length ∧ d.apply text = t.deleteFrom U ∧
      d.apply text = some (keep t.counts U) := by
  obtain ⟨fc, a1, a2, a3⟩ := Subset.complement_spec hf.normal
  obtain ⟨d, b1, b2, b3, b4⟩ := Delta.synthesize_spec f t U h1 h2
  have hfc : fc.counts = flipMask f.counts := a3
  refine ⟨fc, keep (flipMask f.counts) U, keep f.counts U, d, a1, ?_, Subset.deleteFrom_spec _ _ h1, b1, b2, b3, ?_, ?_⟩
  · rw [Subset.deleteFrom_spec _ _ (by rw [hfc]; simpa using h1), hfc]
  · rw [Subset.deleteFrom_spec _ _ h2, d.apply_spec _ b2 b3.symm, b4]
  · rw [d.apply_spec _ b2 b3.symm, b4]

/-- Union text `abcdefg`; first `b`, `c` and `f` are deleted, then `c` and `e`. -/
example :
    let f : Subset := ⟨[⟨1, 0⟩, ⟨2, 1⟩, ⟨2, 0⟩, ⟨1, 1⟩, ⟨1, 0⟩]⟩
    let t : Subset := ⟨[⟨2, 0⟩, ⟨1, 1⟩, ⟨1, 0⟩, ⟨1, 1⟩, ⟨2, 0⟩]⟩
    f.deleteFrom "abcdefg".toList = some "adeg".toList ∧
    (do (← Delta.synthesize "bcf".toList f t).apply "adeg".toList) = some "abdfg".toList := by
  decide

/-! ### C13 -/

/-- **C13.** Feeding a sorted list of disjoint replacements to the builder never
panics; the edit replaces exactly those ranges, is well formed and knows the
length of its result. -/
theorem C13_builder (base : List α) (script : List (Nat × Nat × List α))
    (h : ScriptOk base.length 0 script) :
    ∃ b, (DeltaBuilder.new base.length : DeltaBuilder α).run script = some b ∧
      b.build.WF ∧ b.build.baseLen = base.length ∧
      b.build.apply base = some (replaced base 0 script) ∧
      b.build.newDocumentLen = (replaced base 0 script).length := by
  obtain ⟨b, a1, a2, a3, a4, a5⟩ := DeltaBuilder.run_spec base script (DeltaBuilder.new base.length) h rfl
    (Nat.zero_le _)
  obtain ⟨b1, b2, b3⟩ := DeltaBuilder.build_spec base b a2 a3 a4
  have hres : b.build.result base = replaced base 0 script := by
    rw [b3, a5]; simp [DeltaBuilder.new]
  refine ⟨b, a1, b1, b2, by rw [b.build.apply_spec base b1 b2.symm, hres], ?_⟩
  rw [← hres, Delta.newDocumentLen, totalElementLen_eq, Delta.result, elsText_length]
  rw [← b2]; exact b1.inRange

example : ScriptOk 11 0 [(0, 1, ['J']), (4, 5, []), (5, 5, ['y', ',']), (11, 11, ['!'])] ∧
    replaced "hello world".toList 0 [(0, 1, ['J']), (4, 5, []), (5, 5, ['y', ',']), (11, 11, ['!'])] =
      "Jelly, world!".toList := by
  simp [ScriptOk]; decide

/-- **C13.** A simple edit replaces its range. -/
theorem C13_simple_edit (base r : List α) (s e : Nat) (hse : s ≤ e) (he : e ≤ base.length) :
    ∃ d, Delta.simpleEdit s e r base.length = some d ∧ d.WF ∧
      d.apply base = some (base.take s ++ r ++ base.drop e) := by
  obtain ⟨b, a1, a2, a3, a4, _⟩ := C13_builder base [(s, e, r)] ⟨Nat.zero_le _, hse, he⟩
  have key : (if r = [] then (DeltaBuilder.new base.length : DeltaBuilder α).delete s e
      else (DeltaBuilder.new base.length : DeltaBuilder α).replace s e r) = some b := by
    by_cases hr : r = []
    · subst hr
      simp only [DeltaBuilder.run, List.foldlM_cons, List.foldlM_nil, DeltaBuilder.replace] at a1
      simpa using a1
    · rw [if_neg hr]
      simp only [DeltaBuilder.run, List.foldlM_cons, List.foldlM_nil] at a1
      simpa using a1
  refine ⟨b.build, ?_, a2, by simpa [replaced] using a4⟩
  unfold Delta.simpleEdit
  by_cases hr : r = []
  · simp only [if_pos hr] at key ⊢; simp [key]
  · simp only [if_neg hr] at key ⊢; simp [key]

/-- **C13.** Outside the interval given by `summary` the text is unchanged, and
inside it has the stated length. -/
theorem C13_summary (d : Delta α) (h : d.WF) (base : List α) (hl : base.length = d.baseLen) :
    ∃ s e n mid, d.summary = ((s, e), n) ∧ s ≤ e ∧ e ≤ base.length ∧ mid.length = n ∧
      d.apply base = some (base.take s ++ mid ++ base.drop e) := by
  obtain ⟨h1, h2, mid, h3, h4⟩ := d.summary_spec base h hl
  exact ⟨d.summary.1.1, d.summary.1.2, d.summary.2, mid, rfl, h1, h2, h3, by rw [d.apply_spec base h hl, h4]⟩

example : (⟨[.copy 0 4, .insert ['0'], .copy 5 6, .insert ['W'], .copy 7 11], 11⟩ : Delta Char).summary =
    ((4, 7), 3) := by decide

/-- **C13.** The edit classifications are truthful: an edit reported as the
identity changes nothing, one reported as a simple insertion inserts that text
at one place, one reported as a simple deletion removes one non-empty range. -/
theorem C13_classification (d : Delta α) (h : d.WF) (base : List α) (hl : base.length = d.baseLen) :
    (d.isIdentity = true → d.result base = base) ∧
    (∀ n, d.asSimpleInsert = some n → ∃ i ≤ base.length, d.result base = base.take i ++ n ++ base.drop i) ∧
    (d.isSimpleDelete = true → ∃ a b, a < b ∧ b ≤ base.length ∧
      d.result base = base.take a ++ base.drop b) := by
  rcases d with ⟨els, n⟩
  simp only [Delta.WF] at h hl
  refine ⟨?_, ?_, ?_⟩
  · intro hi
    simp only [Delta.isIdentity] at hi
    split at hi
    · rename_i b e
      simp at hi
      obtain ⟨rfl, rfl⟩ := hi
      simp [Delta.result, ← hl]
    · simp at hi
      have : base = [] := List.eq_nil_of_length_eq_zero (by omega)
      simp [Delta.result, this]
    · simp at hi
  · intro t ht
    have tail : ∀ (i : Nat) (rest : List (DeltaElement α)), i ≤ n →
        Delta.asSimpleInsertTail n i rest = some t → elsText base rest = t ++ base.drop i := by
      intro i rest hin hh
      unfold Delta.asSimpleInsertTail at hh
      split at hh
      · split at hh
        · rename_i hi; simp at hh; subst hh; simp [hi, ← hl]
        · simp at hh
      · split at hh
        · rename_i hi; simp at hh; subst hh; simp [hi.1, hi.2, ← hl]
        · simp at hh
      · simp at hh
    simp only [Delta.asSimpleInsert] at ht
    split at ht
    · rename_i b e rest
      split at ht
      · simp at ht
      · rename_i hb
        have hb : b = 0 := by omega
        subst hb
        have hen := h.2.2.lo_le
        exact ⟨e, by omega, by simp [Delta.result, tail e _ hen ht]⟩
    · exact ⟨0, by omega, by simp [Delta.result, tail 0 _ (by omega) ht]⟩
  · intro hd
    simp only [Delta.isSimpleDelete] at hd
    split at hd
    · simp at hd
      exact ⟨0, n, by omega, by omega, by simp [Delta.result, ← hl]⟩
    · rename_i b e rest
      have hen := h.2.2.lo_le
      have hbe := h.2.1
      split at hd
      · rename_i hb
        subst hb
        split at hd
        · simp at hd
          exact ⟨e, n, hd, by omega, by simp [Delta.result, ← hl]⟩
        · rename_i b1 e1 rest'
          simp at hd
          obtain ⟨⟨h1, h2⟩, rfl⟩ := hd
          subst h1
          have := h.2.2.2.1
          exact ⟨e, b1, h2, by omega, by simp [Delta.result, ← hl]⟩
        · simp at hd
      · rename_i hb
        simp at hd
        obtain ⟨rfl, rfl⟩ := hd
        exact ⟨0, b, by omega, by omega, by simp [Delta.result, ← hl]⟩
    · simp at hd

/-! ### C14 -/

/-- **C14.** Mapping offsets through an edit is monotone, keeps the start (with
`after = false`) and the end (with `after = true`), and `after` never moves an
offset to the left. -/
theorem C14_transform_monotone (d : Delta α) (h : d.WF) :
    (∀ after i j, i ≤ j → d.transformIx i after ≤ d.transformIx j after) ∧
    (∀ i, d.transformIx i false ≤ d.transformIx i true) ∧
    d.transformIx 0 false = 0 ∧
    d.transformIx d.baseLen true = d.newDocumentLen := by
  refine ⟨?_, ?_, rfl, ?_⟩
  · intro after i j hij
    unfold Delta.transformIx
    by_cases h1 : i = 0 ∧ after = false
    · rw [if_pos h1]; exact Nat.zero_le _
    · rw [if_neg h1, if_neg (show ¬ (j = 0 ∧ after = false) from fun hc => h1 ⟨by omega, hc.2⟩)]
      exact transformGo_mono _ h after hij 0
  · intro i
    unfold Delta.transformIx
    rw [if_neg (show ¬ (i = 0 ∧ true = false) by simp)]
    by_cases h1 : i = 0
    · rw [if_pos ⟨h1, rfl⟩]; exact Nat.zero_le _
    · rw [if_neg (by simp [h1])]; exact transformGo_after_mono _ h i 0
  · unfold Delta.transformIx
    rw [if_neg (by simp)]
    have := transformGo_true_append d.els [] h (Nat.le_refl _) 0
    simp [Delta.transformGo] at this
    rw [this, Delta.newDocumentLen, totalElementLen_eq]

/-- **C14.** A surviving character: if position `ix` lies in a copied range then
with `after = true` it is mapped to the place of that character in the new
text, and the position just behind it is mapped with `after = false` just
behind that character. -/
theorem C14_transform_tracks_characters (d : Delta α) (h : d.WF)
    {pre post : List (DeltaElement α)} {b e ix : Nat} (hd : d.els = pre ++ .copy b e :: post)
    (h1 : b ≤ ix) (h2 : ix < e) (base : List α) (hl : base.length = d.baseLen) :
    d.transformIx ix true = (elsText base pre).length + (ix - b) ∧
    d.transformIx (ix + 1) false = (elsText base pre).length + (ix - b) + 1 ∧
    (d.result base)[d.transformIx ix true]? = base[ix]? := by
  have hw := h
  rw [Delta.WF, hd] at hw
  obtain ⟨w1, w2, w3⟩ := hw.split_copy
  have hlp : (elsText base pre).length = (elsMask pre).length := by
    refine elsText_length ?_
    have := w3.lo_le
    exact (w1.mono (by omega)).inRange
  have e1 : d.transformIx ix true = (elsText base pre).length + (ix - b) := by
    unfold Delta.transformIx
    rw [if_neg (by simp), hd, transformGo_true_append pre _ w1 h1, hlp]
    simp only [Delta.transformGo]
    by_cases hib : ix ≤ b
    · rw [if_pos hib]; omega
    · rw [if_neg hib, if_pos (by simp [h2])]; omega
  refine ⟨e1, ?_, ?_⟩
  · unfold Delta.transformIx
    rw [if_neg (by simp), hd, transformGo_false_append pre _ w1 (by omega), hlp]
    simp only [Delta.transformGo]
    rw [if_neg (by omega), if_pos (by simp; omega)]; omega
  · rw [e1, Delta.result, hd, elsText_append, elsText_copy]
    have := w3.lo_le
    rw [List.getElem?_append_right (by omega), List.getElem?_append_left (by simp; omega)]
    simp only [Nat.add_sub_cancel_left, List.getElem?_drop, List.getElem?_take]
    rw [if_pos (by omega)]; congr 1; omega

/-- **C14.** An interval reported untouched is found unchanged in the new
text. -/
theorem C14_untouched_is_unchanged (d : Delta α) (h : d.WF) (s t : Nat) (hst : s ≤ t)
    (hu : d.intervalUntouched s t = true) (base : List α) (hl : base.length = d.baseLen) :
    ((d.result base).drop (d.transformIx s true)).take (t - s) = (base.take t).drop s := by
  by_cases heq : s = t
  · subst heq; simp
  obtain ⟨pre, b, e, post, h1, h2, h3⟩ := untouchedGo_spec s t d.els true h (by simp) hu
  obtain ⟨e1, _, _⟩ := C14_transform_tracks_characters d h h1 (ix := s) (by omega) (by omega) base hl
  have hw := h
  rw [Delta.WF, h1] at hw
  have hle := hw.split_copy.2.2.lo_le
  rw [e1, Delta.result, h1, elsText_append, elsText_copy, List.drop_append]
  have hd1 : (elsText base pre).drop ((elsText base pre).length + (s - b)) = [] :=
    List.drop_of_length_le (by omega)
  rw [hd1, List.nil_append]
  have : (elsText base pre).length + (s - b) - (elsText base pre).length = s - b := by omega
  rw [this, List.drop_append_of_le_length (by simp; omega), List.take_append_of_le_length (by simp; omega)]
  rw [List.drop_drop, show b + (s - b) = s by omega, List.take_drop, List.take_take]
  congr 2; omega

example : let d : Delta Char := ⟨[.copy 0 4, .insert ['0', '0'], .copy 5 11], 11⟩
    d.WF ∧ d.transformIx 6 true = 7 ∧ d.transformIx 4 false = 4 ∧ d.transformIx 4 true = 6 ∧
    d.intervalUntouched 1 3 = true ∧ d.intervalUntouched 3 6 = false := by decide

/-! ### C15 -/

theorem InsertDelta.WF.denotes {d : InsertDelta α} (h : d.WF) :
    d.Denotes d.d.baseLen (elsMask d.d.els) (elsIns d.d.els) := ⟨rfl, h.1, rfl, rfl⟩

/-- **C15, expand.** `X` marks extra positions added to the text an insertion
edit was made for.  The rewritten edit applies to the text with the extras,
keeps all of it, and removing the extras from its result gives what the
original edit gives on the original text. -/
theorem C15_transform_expand (d : InsertDelta α) (h : d.WF) (X : Subset) (hX : X.Reach) (after : Bool)
    (U : List α) (hU : U.length = X.counts.length) (hb : d.d.baseLen = X.lenAfterDelete) :
    ∃ d' text U' I' X', d.transformExpand X after = some d' ∧ d'.WF ∧ d'.d.baseLen = U.length ∧
      X.deleteFrom U = some text ∧
      d'.apply U = some U' ∧ d'.insertedSubset = some I' ∧ I'.deleteFrom U' = some U ∧
      X.transformExpand I' = some X' ∧
      X'.deleteFrom U' = d.apply text ∧ (d.apply text).isSome := by
  rw [Subset.lenAfterDelete_spec] at hb
  have hd := h.denotes
  rw [hb] at hd
  obtain ⟨d', a1, a2, a3⟩ := InsertDelta.transformExpand_spec X hX.normal hd h.2 after
  have hz := hd.zeros
  have hs := hd.length
  have hz' := a2.zeros
  have hs' := a2.length
  obtain ⟨I', b1, b2, b3⟩ := a2.insertedSubset a3
  obtain ⟨X', c1, c2, c3⟩ := Subset.transformExpand_spec hX.normal b2 (by rw [b3, hz'])
  have hk : (keep X.counts U).length = zeros X.counts := keep_length _ _ hU.symm
  have hap := hd.apply hk
  have hw := weave_length (rebaseMask after (elsMask d.d.els) X.counts) U (elsIns d.d.els)
    (by rw [hz', hU]) (by omega)
  refine ⟨d', keep X.counts U, _, I', X', a1, ⟨a2.base ▸ a2.contig, a3⟩, by rw [a2.base, hU],
    Subset.deleteFrom_spec _ _ hU.symm, a2.apply hU, b1, ?_, c1, ?_, by simp [hap]⟩
  · rw [Subset.deleteFrom_spec _ _ (by rw [b3, hw]), b3, keep_weave _ _ _ (by omega) (by omega)]
  · rw [Subset.deleteFrom_spec _ _ (by rw [c3, b3, hw]; simp), c3, b3, hap,
      keep_rebase_weave _ _ (by omega) _ _ hU (by omega)]

/-- Order of the two kinds of additions next to each other. -/
theorem rebase_order (after : Bool) : ∀ I X, zeros I = zeros X → ∀ p,
    (after = true → (rebaseMask after I X)[p]?.getD 0 ≠ 0 →
      (expandMask (rebaseMask after I X) X)[p + 1]?.getD 0 = 0) ∧
    (after = false → (expandMask (rebaseMask after I X) X)[p]?.getD 0 ≠ 0 →
      (rebaseMask after I X)[p + 1]?.getD 0 = 0) := by
  have headE : after = true → ∀ I X, (∀ x ∈ X.head?, x = 0) →
      (expandMask (rebaseMask after I X) X)[0]?.getD 0 = 0 := by
    intro _ I X hx
    cases X with
    | nil => cases h : rebaseMask after I [] with
      | nil => simp
      | cons j J => cases j <;> simp
    | cons x X =>
      have : x = 0 := by simpa using hx
      subst this
      cases h : rebaseMask after I (0 :: X) with
      | nil => simp
      | cons j J => cases j <;> simp
  have headJ : ∀ I X, (∀ i ∈ I.head?, i = 0) → (rebaseMask after I X)[0]?.getD 0 = 0 := by
    intro I X hi
    cases I with
    | nil => rw [rebaseMask_nil]; cases X <;> simp [List.replicate_succ]
    | cons i I =>
      have : i = 0 := by simpa using hi
      subst this
      cases X with
      | nil => simp [rebaseMask_cons_nil]
      | cons x X =>
        by_cases hx : x = 0
        · subst hx; simp [rebaseMask_zero_zero]
        · simp [rebaseMask_right _ _ hx]
  refine rebase_induction (after := after) ?_ ?_ ?_ ?_
  · intro p; simp [rebaseMask_nil]
  · intro I X h ih p
    rw [rebaseMask_zero_zero]
    cases p with
    | zero => simp
    | succ p => simpa using ih p
  · intro I x X hx h hs ih p
    rw [rebaseMask_right' _ _ hx hs]
    cases p with
    | zero =>
      refine ⟨by simp, fun ha _ => ?_⟩
      rcases hs with hs | hs
      · simp [hs] at ha
      · simpa using headJ I X hs
    | succ p => simpa using ih p
  · intro i I X hi h hs ih p
    rw [rebaseMask_left' _ _ hi hs, expandMask_left hi]
    cases p with
    | zero => exact ⟨fun ha _ => by simpa using headE ha I X (hs ha), by simp⟩
    | succ p => simpa using ih p

/-- **C15, order.** In the combined text a run of insertions and extras at the
same place is ordered as requested: with `after` no extra directly follows an
insertion, without it no insertion directly follows an extra. -/
theorem C15_order (d : InsertDelta α) (h : d.WF) (X : Subset) (hX : X.Reach) (after : Bool)
    (hb : d.d.baseLen = X.lenAfterDelete) {d' : InsertDelta α} {I' X' : Subset}
    (h1 : d.transformExpand X after = some d') (h2 : d'.insertedSubset = some I')
    (h3 : X.transformExpand I' = some X') (p : Nat) :
    (after = true → I'.counts[p]?.getD 0 ≠ 0 → X'.counts[p + 1]?.getD 0 = 0) ∧
    (after = false → X'.counts[p]?.getD 0 ≠ 0 → I'.counts[p + 1]?.getD 0 = 0) := by
  rw [Subset.lenAfterDelete_spec] at hb
  have hd := h.denotes
  rw [hb] at hd
  obtain ⟨d'', a1, a2, a3⟩ := InsertDelta.transformExpand_spec X hX.normal hd h.2 after
  rw [h1] at a1; cases a1
  obtain ⟨I'', b1, b2, b3⟩ := a2.insertedSubset a3
  rw [h2] at b1; cases b1
  obtain ⟨X'', c1, c2, c3⟩ := Subset.transformExpand_spec hX.normal b2 (by rw [b3, a2.zeros])
  rw [h3] at c1; cases c1
  rw [c3, b3]
  exact rebase_order after _ _ (by rw [hd.zeros]) p

/-- **C15, shrink.** `X` marks positions that disappear from the text an
insertion edit was made for.  The rewritten edit applies to the shrunken text
and gives the original result without the disappeared positions. -/
theorem C15_transform_shrink (d : InsertDelta α) (h : d.WF) (X : Subset) (hX : X.Reach)
    (U : List α) (hU : U.length = X.counts.length) (hb : d.d.baseLen = X.counts.length) :
    ∃ d' text U' I X', d.transformShrink X = some d' ∧ X.deleteFrom U = some text ∧
      d.apply U = some U' ∧ d.insertedSubset = some I ∧ X.transformExpand I = some X' ∧
      d'.apply text = X'.deleteFrom U' ∧ (d'.apply text).isSome := by
  have hd := h.denotes
  rw [hb] at hd
  obtain ⟨d', a1, a2⟩ := InsertDelta.transformShrink_spec X hd
  obtain ⟨I, b1, b2, b3⟩ := hd.insertedSubset h.2
  have hz := hd.zeros
  have hs := hd.length
  obtain ⟨X', c1, c2, c3⟩ := Subset.transformExpand_spec hX.normal b2 (by rw [b3, hz])
  have hk : (keep X.counts U).length = zeros X.counts := keep_length _ _ hU.symm
  have hap := a2.apply hk
  have hw := weave_length (elsMask d.d.els) U (elsIns d.d.els) (by omega) (by omega)
  refine ⟨d', keep X.counts U, _, I, X', a1, Subset.deleteFrom_spec _ _ hU.symm, hd.apply hU, b1, c1, ?_,
    by simp [hap]⟩
  rw [Subset.deleteFrom_spec _ _ (by rw [c3, b3, hw]; simp), c3, b3, hap,
    keep_expand_weave _ _ _ _ (by omega) hU (by omega)]

/-- **C15, round trip.** Shrinking undoes expanding. -/
theorem C15_expand_shrink (d : InsertDelta α) (h : d.WF) (X : Subset) (hX : X.Reach) (after : Bool)
    (hb : d.d.baseLen = X.lenAfterDelete) :
    ∃ d' d'', d.transformExpand X after = some d' ∧ d'.transformShrink X = some d'' ∧
      ∀ text : List α, text.length = d.d.baseLen → d''.apply text = d.apply text := by
  rw [Subset.lenAfterDelete_spec] at hb
  have hd := h.denotes
  rw [hb] at hd
  obtain ⟨d', a1, a2, a3⟩ := InsertDelta.transformExpand_spec X hX.normal hd h.2 after
  obtain ⟨d'', b1, b2⟩ := InsertDelta.transformShrink_spec X a2
  refine ⟨d', d'', a1, b1, fun text ht => ?_⟩
  rw [b2.apply (by omega), hd.apply (by omega), keep_rebase _ _ (by rw [hd.zeros])]

/-- Insert `X` in the middle of `ab`, where the extended text is `a12b`. -/
example : let d : InsertDelta Char := ⟨⟨[.copy 0 1, .insert ['X'], .copy 1 2], 2⟩⟩
    let X : Subset := ⟨[⟨1, 0⟩, ⟨2, 1⟩, ⟨1, 0⟩]⟩
    (do (← d.transformExpand X true).apply "a12b".toList) = some "a12Xb".toList ∧
    (do (← d.transformExpand X false).apply "a12b".toList) = some "aX12b".toList := by decide

/-! ### C16 -/

/-- **C16.** Two independent insertion edits of the same text: rebasing each over
the other with opposite tie-breaks gives the same final text. -/
theorem C16_concurrent_insertions_converge (a b : InsertDelta α) (ha : a.WF) (hb : b.WF)
    (base : List α) (hla : a.d.baseLen = base.length) (hlb : b.d.baseLen = base.length) (after : Bool) :
    ∃ Ia Ib a' b' ta tb r, a.insertedSubset = some Ia ∧ b.insertedSubset = some Ib ∧
      a.transformExpand Ib after = some a' ∧ b.transformExpand Ia (!after) = some b' ∧
      a.apply base = some ta ∧ b.apply base = some tb ∧
      a'.apply tb = some r ∧ b'.apply ta = some r := by
  have da := ha.denotes
  have db := hb.denotes
  rw [hla] at da
  rw [hlb] at db
  obtain ⟨Ia, a1, a2, a3⟩ := da.insertedSubset ha.2
  obtain ⟨Ib, b1, b2, b3⟩ := db.insertedSubset hb.2
  have za := da.zeros; have zb := db.zeros; have sa := da.length; have sb := db.length
  have da' := da
  have db' := db
  rw [show base.length = zeros Ib.counts by rw [b3, zb]] at da'
  rw [show base.length = zeros Ia.counts by rw [a3, za]] at db'
  obtain ⟨a', c1, c2, c3⟩ := InsertDelta.transformExpand_spec Ib b2 da' ha.2 after
  obtain ⟨b', d1, d2, d3⟩ := InsertDelta.transformExpand_spec Ia a2 db' hb.2 (!after)
  have wa := weave_length (elsMask a.d.els) base (elsIns a.d.els) (by omega) (by omega)
  have wb := weave_length (elsMask b.d.els) base (elsIns b.d.els) (by omega) (by omega)
  refine ⟨Ia, Ib, a', b', _, _, _, a1, b1, c1, d1, da.apply rfl, db.apply rfl, c2.apply (by rw [b3, wb]), ?_⟩
  rw [d2.apply (by rw [a3, wa]), a3, b3]
  congr 1
  exact (rebase_diamond _ _ (by omega) _ _ _ (by omega) (by omega) (by omega)).symm

example : (⟨⟨[.copy 0 1, .insert ['X'], .copy 1 2], 2⟩⟩ : InsertDelta Char).WF ∧
    (⟨⟨[.insert ['Z'], .copy 0 1, .insert ['Y'], .copy 1 2, .insert ['W']], 2⟩⟩ : InsertDelta Char).WF := by
  simp [InsertDelta.WF, Contig, PosEl]

/-! ### C17 -/

/-- Position `j` is in a reported region of the old text. -/
def inOld (rs : List Delta.Region) (j : Nat) : Prop := ∃ r ∈ rs, r.oldOffset ≤ j ∧ j < r.oldOffset + r.len

/-- Position `p` is in a reported region of the new text. -/
def inNew (rs : List Delta.Region) (p : Nat) : Prop := ∃ r ∈ rs, r.newOffset ≤ p ∧ p < r.newOffset + r.len

/-- **C17 is false of the code**: this well-formed edit replaces `cde` by `XYZ`,
and `iter_deletions` reports that nothing is deleted. -/
theorem C17_deletions_refuted :
    let d : Delta Char := ⟨[.copy 0 2, .insert ['X', 'Y', 'Z'], .copy 5 10], 10⟩
    d.WF ∧ d.result "abcdefghij".toList = "abXYZfghij".toList ∧ d.iterDeletions = [] := by
  decide

/-- Nothing is deleted at a place where something is inserted. -/
def Separate (n : Nat) : Nat → Bool → List (DeltaElement α) → Prop
  | lo, ins, [] => ins = true → lo = n
  | lo, ins, .copy b e :: rest => (ins = true → b = lo) ∧ Separate n e false rest
  | lo, _, .insert _ :: rest => Separate n lo true rest

theorem deletionsGo_spec (n : Nat) : ∀ (els : List (DeltaElement α)) (lo pos last : Nat) (ins : Bool),
    ElsWF n lo els → Separate n lo ins els → lo ≤ last → (ins = false → last = lo) →
    ∀ j, inOld (Delta.deletionsGo n els pos last) j ↔ lo ≤ j ∧ j < n ∧ coveredAt els j = false := by
  intro els
  induction els with
  | nil =>
    intro lo pos last ins hw hs h1 h2 j
    simp only [Delta.deletionsGo, inOld, coveredAt_nil]
    cases ins with
    | true =>
      have := hs rfl
      rw [if_neg (by omega)]
      simp; omega
    | false =>
      have := h2 rfl
      subst this
      split
      · simp; omega
      · simp; omega
  | cons el els ih =>
    intro lo pos last ins hw hs h1 h2 j
    cases el with
    | insert s =>
      simp only [Delta.deletionsGo, coveredAt_insert]
      exact ih lo _ _ true hw.2 hs (by omega) (by simp) j
    | copy b e =>
      obtain ⟨w1, w2, w3⟩ := hw
      obtain ⟨s1, s2⟩ := hs
      have ih := ih e (pos + (e - b)) e false w3 s2 (Nat.le_refl _) (fun _ => rfl) j
      have hen := w3.lo_le
      have hcov : ∀ j, j < e → coveredAt els j = false := fun j hj => coveredAt_lt w3 hj
      simp only [Delta.deletionsGo, coveredAt_copy]
      have split_iff : (lo ≤ j ∧ j < n ∧ ((decide (b ≤ j) && decide (j < e)) || coveredAt els j) = false) ↔
          ((lo ≤ j ∧ j < b) ∨ (e ≤ j ∧ j < n ∧ coveredAt els j = false)) := by
        by_cases hje : j < e
        · simp [hcov j hje]; omega
        · have e1 : decide (j < e) = false := by simp; omega
          simp only [e1, Bool.and_false, Bool.false_or]
          constructor
          · rintro ⟨h1, h2, h3⟩; exact Or.inr ⟨by omega, h2, h3⟩
          · rintro (h1 | ⟨h1, h2, h3⟩)
            · omega
            · exact ⟨by omega, h2, h3⟩
      rw [split_iff, ← ih]
      by_cases hb : b > last
      · rw [if_pos hb]
        have hl : last = lo := by
          cases ins with
          | true => have := s1 rfl; omega
          | false => exact h2 rfl
        subst hl
        simp only [inOld, List.mem_cons, exists_eq_or_imp]
        apply or_congr _ Iff.rfl
        omega
      · rw [if_neg hb]
        have : b = lo := by
          cases ins with
          | true => exact s1 rfl
          | false => have := h2 rfl; omega
        simp only [inOld]
        constructor
        · exact Or.inr
        · rintro (h | h)
          · omega
          · exact h

theorem insertsGo_spec : ∀ (els : List (DeltaElement α)) (pos last p : Nat),
    inNew (Delta.insertsGo els pos last) p ↔ pos ≤ p ∧ (elsMask els)[p - pos]? = some 1 := by
  intro els
  induction els with
  | nil => intro pos last p; simp [Delta.insertsGo, inNew]
  | cons el els ih =>
    intro pos last p
    cases el with
    | copy b e =>
      simp only [Delta.insertsGo, elsMask_copy]
      rw [ih]
      by_cases h : p - pos < e - b
      · rw [List.getElem?_append_left (by simpa using h)]
        simp [List.getElem?_replicate]; omega
      · rw [List.getElem?_append_right (by simpa using h)]
        simp only [List.length_replicate, Nat.sub_sub]
        constructor
        · rintro ⟨h1, h2⟩; exact ⟨by omega, h2⟩
        · rintro ⟨h1, h2⟩; exact ⟨by omega, h2⟩
    | insert s =>
      simp only [Delta.insertsGo, elsMask_insert]
      have ih := ih (pos + s.length) (last + s.length) p
      simp only [inNew, List.mem_cons, exists_eq_or_imp] at ih ⊢
      rw [ih]
      by_cases h : p - pos < s.length
      · rw [List.getElem?_append_left (by simpa using h)]
        simp [List.getElem?_replicate, h]; omega
      · rw [List.getElem?_append_right (by simpa using h)]
        simp only [List.length_replicate, Nat.sub_sub]
        constructor
        · rintro (h1 | ⟨h1, h2⟩)
          · omega
          · exact ⟨by omega, h2⟩
        · rintro ⟨h1, h2⟩; exact Or.inr ⟨by omega, h2⟩

/-- **C17, partial.** The inserted regions cover exactly the new characters of
every well-formed edit (`elsMask` marks them), and the deleted regions cover
exactly the deleted characters of edits that never delete at a place where they
insert.  What is missing: edits that replace text, for which the deleted
regions are wrong (`C17_deletions_refuted`). -/
theorem C17_regions_partial (d : Delta α) (h : d.WF) :
    (∀ p, inNew d.iterInserts p ↔ (elsMask d.els)[p]? = some 1) ∧
    (Separate d.baseLen 0 false d.els → ∀ j, inOld d.iterDeletions j ↔
      j < d.baseLen ∧ coveredAt d.els j = false) := by
  constructor
  · intro p
    have := insertsGo_spec d.els 0 0 p
    simpa [Delta.iterInserts] using this
  · intro hs j
    have := deletionsGo_spec d.baseLen d.els 0 0 0 false h hs (Nat.le_refl _) (fun _ => rfl) j
    simpa [Delta.iterDeletions] using this

example : let d : Delta Char := ⟨[.copy 0 2, .copy 5 7, .insert ['X'], .copy 7 10], 10⟩
    d.WF ∧ Separate d.baseLen 0 false d.els ∧ d.iterDeletions = [⟨2, 2, 3⟩] := by
  refine ⟨by decide, by simp [Separate], by decide⟩

end Xi
