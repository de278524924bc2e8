import Verif.Plugin.CommentsLemmas

/-!
# C91: commenting out lines

The plugin for syntax highlighting comments out the selected lines at the least of their margins, and takes the markers away again.
-/

namespace Xi

namespace Syntect

/-! ## Lines -/

theorem linesOf_ne : ∀ (t : List Char), linesOf t ≠ []
  | [] => by simp [linesOf]
  | c :: cs => by
    simp only [linesOf]
    split
    · simp
    · split <;> simp

theorem flatten_linesOf : ∀ (t : List Char), (linesOf t).flatten = t
  | [] => rfl
  | c :: cs => by
    have ih := flatten_linesOf cs
    simp only [linesOf]
    split
    · simp [ih]
    · split
      · next h => exact absurd h (linesOf_ne cs)
      · next l ls h => rw [h] at ih; simp at ih ⊢; exact ih

theorem isLines_cons {l : List Char} {ls : List (List Char)} (h : ls ≠ []) : IsLines (l :: ls) ↔ (∃ b, l = b ++ ['\n'] ∧ '\n' ∉ b) ∧ IsLines ls := by
  cases ls with
  | nil => exact absurd rfl h
  | cons a as => simp [IsLines]

theorem isLines_linesOf : ∀ (t : List Char), IsLines (linesOf t)
  | [] => by simp [linesOf, IsLines]
  | c :: cs => by
    have ih := isLines_linesOf cs
    simp only [linesOf]
    split
    · next h =>
      rw [isLines_cons (linesOf_ne cs)]
      exact ⟨⟨[], by simp [h], by simp⟩, ih⟩
    · next hc =>
      split
      · next h => exact absurd h (linesOf_ne cs)
      · next l ls h =>
        rw [h] at ih
        cases ls with
        | nil =>
          simp only [IsLines, List.mem_cons, not_or] at ih ⊢
          exact ⟨fun e => hc e.symm, ih⟩
        | cons a as =>
          obtain ⟨⟨b, e, hb⟩, ih⟩ := ih
          exact ⟨⟨c :: b, by simp [e], by simp [hb]; exact fun e => hc e.symm⟩, ih⟩

theorem linesOf_last : ∀ {l : List Char}, '\n' ∉ l → linesOf l = [l]
  | [], _ => rfl
  | c :: cs, h => by
    simp only [List.mem_cons, not_or] at h
    simp only [linesOf]
    rw [if_neg (fun e => h.1 e.symm), linesOf_last h.2]

theorem linesOf_line : ∀ {b t : List Char}, '\n' ∉ b → linesOf (b ++ '\n' :: t) = (b ++ ['\n']) :: linesOf t
  | [], t, _ => by simp [linesOf]
  | c :: cs, t, h => by
    simp only [List.mem_cons, not_or] at h
    simp only [List.cons_append, linesOf]
    rw [if_neg (fun e => h.1 e.symm), linesOf_line h.2]

theorem linesOf_flatten : ∀ {d : List (List Char)}, IsLines d → linesOf d.flatten = d
  | [], h => absurd h (by simp [IsLines])
  | [l], h => by simpa using linesOf_last h
  | l :: a :: as, h => by
    obtain ⟨⟨b, e, hb⟩, h2⟩ := h
    subst e
    have ih := linesOf_flatten h2
    rw [List.flatten_cons, List.append_assoc, List.singleton_append, linesOf_line hb, ih]

/-! ## Markers -/

theorem isBlank_eq : isBlank = space := by
  funext c
  simp [isBlank, space]


theorem findStr_some {pat : List Char} : ∀ {l : List Char} {i : Nat}, findStr pat l = some i →
    ∃ w rest, l = w ++ pat ++ rest ∧ w.length = i ∧ ∀ j, j < i → ¬ pat <+: l.drop j
  | [], i, h => by
    simp only [findStr] at h
    split at h
    · next hp => simp at h; subst h; exact ⟨[], [], by simp [List.isEmpty_iff.1 hp], rfl, by simp⟩
    · simp at h
  | c :: cs, i, h => by
    simp only [findStr] at h
    split at h
    · next hp =>
      simp at h; subst h
      obtain ⟨rest, e⟩ := List.isPrefixOf_iff_prefix.1 hp
      exact ⟨[], rest, by simp [e], rfl, by simp⟩
    · next hp =>
      simp only [Option.map_eq_some_iff] at h
      obtain ⟨i', h1, rfl⟩ := h
      obtain ⟨w, rest, e, hw, hf⟩ := findStr_some h1
      refine ⟨c :: w, rest, by simp [e], by simp [hw], fun j hj => ?_⟩
      cases j with
      | zero => simpa [List.isPrefixOf_iff_prefix] using hp
      | succ j => simpa using hf j (by omega)

theorem findStr_none {pat : List Char} : ∀ {l : List Char}, findStr pat l = none → ¬ pat <:+: l
  | [], h => by
    simp only [findStr] at h
    split at h
    · simp at h
    · next hp => simpa [List.isEmpty_iff] using hp
  | c :: cs, h => by
    simp only [findStr] at h
    split at h
    · simp at h
    · next hp =>
      simp only [Option.map_eq_none_iff] at h
      have := findStr_none h
      intro hi
      rcases List.infix_cons_iff.1 hi with h1 | h1
      · exact hp (List.isPrefixOf_iff_prefix.2 h1)
      · exact this h1

theorem trim_length_le (l : List Char) : (Lsp.trim l).length ≤ l.length := by
  have h1 := (List.dropWhile_sublist (p := EditOps.isWhitespace) (l := l)).length_le
  have h2 := (List.dropWhile_sublist (p := EditOps.isWhitespace) (l := (l.dropWhile EditOps.isWhitespace).reverse)).length_le
  simp only [Lsp.trim, List.length_reverse] at h1 h2 ⊢
  omega

theorem findIdx_margin : ∀ (l : List Char), (l.findIdx? (fun c => !isBlank c)).getD 0 = margin l := by
  rw [isBlank_eq]
  have key : ∀ (l : List Char), l.findIdx? (fun c => !space c) = if l.all space then none else some (l.takeWhile space).length := by
    intro l
    induction l with
    | nil => rfl
    | cons c cs ih =>
      rw [List.findIdx?_cons]
      by_cases hc : space c = true
      · simp only [hc, Bool.not_true, Bool.false_eq_true, if_false, ih, List.all_cons, Bool.true_and, List.takeWhile_cons, if_true]
        split <;> simp
      · simp [hc]
  intro l
  rw [key, margin]
  split <;> rfl

theorem margin_le (l : List Char) : margin l ≤ l.length := by
  unfold margin
  split
  · exact Nat.zero_le _
  · exact (List.takeWhile_sublist _).length_le

theorem leastIndent_spec {d : List (List Char)} {r : Nat × Nat} (h1 : r.1 < r.2) (h2 : r.2 ≤ d.length) : LeastMargin (within d r) (leastIndent d r.1 r.2) := by
  have e : (List.range' r.1 (r.2 - r.1)).map (fun n => ((d[n]?).bind (fun l => l.findIdx? (fun c => !isBlank c))).getD 0) = (within d r).map margin := by
    apply List.ext_getElem?
    intro i
    simp only [List.getElem?_map, within, List.getElem?_drop, List.getElem?_take]
    by_cases hi : i < r.2 - r.1
    · rw [List.getElem?_range' hi, if_pos (by omega), List.getElem?_eq_getElem (show r.1 + i < d.length by omega)]
      simp [findIdx_margin, List.getElem?_eq_getElem (show r.1 + i < d.length by omega)]
    · rw [List.getElem?_eq_none (by simp; omega), if_neg (by omega)]
      rfl
  unfold leastIndent
  rw [e]
  cases hm : ((within d r).map margin).min? with
  | none =>
    rw [List.min?_eq_none_iff] at hm
    have := congrArg List.length hm
    simp [within] at this
    omega
  | some k =>
    rw [List.min?_eq_some_iff] at hm
    simp only [List.mem_map] at hm
    simp only [Option.getD_some]
    exact ⟨fun l hl => hm.2 _ ⟨l, hl, rfl⟩, hm.1⟩

theorem mem_within {d : List (List Char)} {r : Nat × Nat} {n : Nat} {l : List Char} (h1 : r.1 ≤ n) (h2 : n < r.2) (h : d[n]? = some l) : l ∈ within d r := by
  apply List.mem_of_getElem? (i := n - r.1)
  rw [within, List.getElem?_drop, List.getElem?_take, if_pos (by omega), show r.1 + (n - r.1) = n by omega, h]

/-- What is done to a line of a range. -/
def rangeEd (d : List (List Char)) (marker : Option (List Char)) (r : Nat × Nat) (l : List Char) : LineEdit :=
  match marker, d[r.1]? with
  | some cs, some f =>
    if Lsp.trim cs = Lsp.trim f || cs.isPrefixOf (Lsp.trim f) then
      match findStr cs l with
      | some i => some (i, i + cs.length, [])
      | none => if Lsp.trim l = Lsp.trim cs then some (0, (Lsp.trim cs).length, []) else none
    else if cs.isPrefixOf (Lsp.trim l) then none else some (leastIndent d r.1 r.2, leastIndent d r.1 r.2, cs)
  | _, _ => none

def toggleEd (d : List (List Char)) (comment : Nat → Option (List Char)) (rs : List (Nat × Nat)) (n : Nat) (l : List Char) : LineEdit :=
  match rangeWith rs n with
  | none => none
  | some r => rangeEd d (comment r.1) r l

theorem offsetOf_some {d : List (List Char)} {n : Nat} (h : n < d.length) : offsetOf d n = some (d.take n).flatten.length := if_pos (by omega)

theorem toggleLineRange_run {d : List (List Char)} {comment : Nat → Option (List Char)} {rs : List (Nat × Nat)} {lo : Nat} (hs : Separated d.length lo rs)
    {r : Nat × Nat} (hr : r ∈ rs) (b : EditBuilder) :
    toggleLineRange d comment b r = b.run ((List.range' r.1 (r.2 - r.1)).flatMap (lineEd d (toggleEd d comment rs))) := by
  obtain ⟨_, h1, h2⟩ := separated_mem hs r hr
  have hf : d[r.1]? = some d[r.1] := List.getElem?_eq_getElem (by omega)
  have hed : ∀ n ∈ List.range' r.1 (r.2 - r.1), ∀ hn : n < d.length, lineEd d (toggleEd d comment rs) n = shifted (d.take n).flatten.length (rangeEd d (comment r.1) r d[n]) := by
    intro n hn hn'
    rw [List.mem_range'_1] at hn
    simp only [lineEd, List.getElem?_eq_getElem hn', toggleEd, rangeWith_of_mem hs r hr n hn.1 (by omega)]
  have hlen : ∀ n ∈ List.range' r.1 (r.2 - r.1), n < d.length := fun n hn => by rw [List.mem_range'_1] at hn; omega
  unfold toggleLineRange
  cases hc : comment r.1 with
  | none =>
    have : (List.range' r.1 (r.2 - r.1)).flatMap (lineEd d (toggleEd d comment rs)) = [] := by
      rw [List.flatMap_eq_nil_iff]
      intro n hn
      rw [hed n hn (hlen n hn), hc]
      simp [rangeEd, shifted]
    rw [this]; rfl
  | some cs =>
    simp only [hf]
    split
    · next hcom =>
      unfold removeCommentMarker
      refine cfold_scripts b (fun n hn b => ?_)
      have hn' := hlen n hn
      rw [hed n hn (hlen n hn), hc, offsetOf_some (hlen n hn)]
      simp only [rangeEd, hf, hcom, if_true, List.getElem?_eq_getElem (hlen n hn), Option.bind_eq_bind, Option.bind_some]
      cases hx : findStr cs d[n] with
      | some i => simp only [shifted, crun_one, cdelete_eq, Nat.add_assoc]
      | none =>
        simp only
        split
        · simp only [shifted, crun_one, cdelete_eq, Nat.add_zero]
        · rfl
    · next hcom =>
      unfold insertCommentMarker
      refine cfold_scripts b (fun n hn b => ?_)
      have hn' := hlen n hn
      rw [hed n hn (hlen n hn), hc, offsetOf_some (hlen n hn)]
      simp only [rangeEd, hf, hcom, Bool.false_eq_true, if_false, List.getElem?_eq_getElem (hlen n hn), Option.bind_eq_bind, Option.bind_some]
      split
      · rfl
      · simp only [shifted, crun_one]

theorem toggleEd_ok {d : List (List Char)} {comment : Nat → Option (List Char)} {rs : List (Nat × Nat)} {lo : Nat} (hs : Separated d.length lo rs)
    {n : Nat} {l : List Char} (hl : d[n]? = some l) : EditOk (toggleEd d comment rs n l) l := by
  unfold toggleEd
  cases hr : rangeWith rs n with
  | none => trivial
  | some r =>
    obtain ⟨hm, h1, h2⟩ := rangeWith_some hr
    obtain ⟨_, h3, h4⟩ := separated_mem hs r hm
    simp only [rangeEd]
    split
    · next cs f _ _ =>
      split
      · split
        · next i hi =>
          obtain ⟨w, rest, e, hw, _⟩ := findStr_some hi
          subst e
          simp only [EditOk, List.length_append]
          omega
        · split
          · next e =>
            have := trim_length_le l
            simp only [EditOk]
            rw [e] at this
            omega
          · trivial
      · split
        · trivial
        · have := (leastIndent_spec h3 h4).1 l (mem_within h1 h2 hl)
          have := margin_le l
          simp only [EditOk]
          omega
    · trivial

theorem editLines_getElem? {ed : Nat → List Char → LineEdit} : ∀ {d : List (List Char)} {i n : Nat},
    (editLines ed i d)[n]? = (d[n]?).map (fun l => editLine (ed (i + n) l) l)
  | [], _, _ => by simp [editLines]
  | l :: ls, i, 0 => by simp [editLines]
  | l :: ls, i, n + 1 => by
    simp only [editLines, List.getElem?_cons_succ]
    rw [editLines_getElem?, show i + 1 + n = i + (n + 1) by omega]

theorem toggle_run (text : List Char) (comment : Nat → Option (List Char)) (rs : List (Nat × Nat)) (hs : Separated (linesOf text).length 0 rs) :
    ∃ d, toggleComment text comment rs = some d ∧ afterEdit text d = some (editLines (toggleEd (linesOf text) comment rs) 0 (linesOf text)).flatten := by
  obtain ⟨b, b1, b2, b3⟩ := edit_lines (d := linesOf text) (ed := toggleEd (linesOf text) comment rs) (fun j l hl => toggleEd_ok hs hl)
  rw [flatten_linesOf] at b1 b2 b3
  have hfold : rs.foldlM (toggleLineRange (linesOf text) comment) (DeltaBuilder.new text.length) = some b := by
    rw [cfold_scripts (scr := fun r => (List.range' r.1 (r.2 - r.1)).flatMap (lineEd (linesOf text) (toggleEd (linesOf text) comment rs))) _
      (fun r hr b => toggleLineRange_run hs hr b)]
    rw [← flatMap_ranges hs]
    · simpa using b1
    · intro m _ hm
      have : rangeWith rs m = none := by
        unfold rangeWith
        rw [List.find?_eq_none]
        intro r hr
        simpa using hm r hr
      simp only [lineEd, toggleEd, this]
      split <;> rfl
  unfold toggleComment
  by_cases he : rs.isEmpty = true
  · refine ⟨none, by simp [he], ?_⟩
    rw [List.isEmpty_iff] at he
    subst he
    have : editLines (toggleEd (linesOf text) comment []) 0 (linesOf text) = linesOf text := by
      apply List.ext_getElem?
      intro n
      rw [editLines_getElem?]
      cases (linesOf text)[n]? <;> simp [toggleEd, rangeWith, editLine]
    rw [this, flatten_linesOf]
    rfl
  · rw [if_neg he]
    simp only [hfold, Option.bind_eq_bind, Option.bind_some]
    by_cases hb : b.isEmpty = true
    · exact ⟨none, by simp [hb], by simp [afterEdit, b3 hb]⟩
    · exact ⟨some b.build, by simp [hb], b2⟩

theorem toggled_editLines {d : List (List Char)} {comment : Nat → Option (List Char)} {rs : List (Nat × Nat)} {lo : Nat} (hs : Separated d.length lo rs) :
    Toggled comment rs d (editLines (toggleEd d comment rs) 0 d) := by
  have key : ∀ r ∈ rs, ∀ n, r.1 ≤ n → n < r.2 → ∀ l, d[n]? = some l →
      (editLines (toggleEd d comment rs) 0 d)[n]? = some (editLine (rangeEd d (comment r.1) r l) l) := by
    intro r hr n h1 h2 l hl
    rw [editLines_getElem?, hl]
    simp only [Nat.zero_add, Option.map_some, toggleEd, rangeWith_of_mem hs r hr n h1 h2]
  have bound : ∀ r ∈ rs, ∀ n, r.1 ≤ n → n < r.2 → ∃ l, d[n]? = some l := fun r hr n h1 h2 =>
    ⟨_, List.getElem?_eq_getElem (by have := separated_mem hs r hr; omega)⟩
  refine ⟨fun n hn => ?_, fun r hr hc n h1 h2 => ?_, fun r hr cs hc hf => ?_, fun r hr cs hc hf n h1 h2 l hl => ?_⟩
  · rw [editLines_getElem?]
    cases d[n]? <;> simp [toggleEd, hn, editLine]
  · obtain ⟨l, hl⟩ := bound r hr n h1 h2
    rw [key r hr n h1 h2 l hl, hl, hc]
    simp [rangeEd, editLine]
  · obtain ⟨_, h3, h4⟩ := separated_mem hs r hr
    refine ⟨leastIndent d r.1 r.2, leastIndent_spec h3 h4, fun n h1 h2 l hl => ?_⟩
    have hf' : d[r.1]? = some d[r.1] := List.getElem?_eq_getElem (by omega)
    have hnc := hf _ hf'
    rw [key r hr n h1 h2 l hl, hc]
    simp only [IsComment, not_or, ← List.isPrefixOf_iff_prefix] at hnc
    simp only [rangeEd, hf', hnc.1, hnc.2, decide_false, Bool.or_self, Bool.false_eq_true, if_false, ← List.isPrefixOf_iff_prefix]
    split <;> rfl
  · obtain ⟨_, h3, h4⟩ := separated_mem hs r hr
    have hf' : d[r.1]? = some d[r.1] := List.getElem?_eq_getElem (by omega)
    have hcm := hf _ hf'
    refine ⟨_, key r hr n h1 h2 l hl, ?_⟩
    have hcm' : (decide (Lsp.trim cs = Lsp.trim d[r.1]) || cs.isPrefixOf (Lsp.trim d[r.1])) = true := by
      rw [Bool.or_eq_true, decide_eq_true_iff, List.isPrefixOf_iff_prefix]
      exact hcm.symm
    simp only [hc, rangeEd, hf', hcm', if_true]
    cases hx : findStr cs l with
    | some i =>
      obtain ⟨w, rest, e, hw, hj⟩ := findStr_some hx
      refine Or.inl ⟨w, rest, e, ?_, by rw [hw]; exact hj⟩
      subst hw
      rw [e]
      simp only [editLine]
      have e1 : (w ++ cs ++ rest).take w.length = w := by rw [List.append_assoc, List.take_left]
      have e2 : (w ++ cs ++ rest).drop (w.length + cs.length) = rest := by rw [← List.length_append, List.drop_left]
      rw [e1, e2]
      simp
    | none =>
      have hn := findStr_none hx
      simp only
      split
      · next ht => exact Or.inr (Or.inl ⟨hn, ht, by simp [editLine]⟩)
      · next ht => exact Or.inr (Or.inr ⟨hn, ht, rfl⟩)

/-! ## Ranges -/

/-- The ranges after `prev`. -/
def merged : Nat × Nat → List (Nat × Nat) → List (Nat × Nat)
  | prev, [] => [prev]
  | prev, r :: rs => if r.1 ≤ prev.2 then merged (min prev.1 r.1, max prev.2 (r.2 + 1)) rs else prev :: merged (r.1, r.2 + 1) rs

theorem combine_fold : ∀ {rs : List (Nat × Nat)} {prev : Nat × Nat} {done : List (Nat × Nat)},
    finishRanges (rs.foldl combine (some prev, done)) = done ++ merged prev rs
  | [], prev, done => rfl
  | r :: rs, prev, done => by
    rw [List.foldl_cons]
    simp only [combine, merged]
    split
    · exact combine_fold
    · rw [combine_fold]; simp

theorem merged_spec {n : Nat} : ∀ {rs : List (Nat × Nat)} {prev : Nat × Nat} {lo : Nat}, lo ≤ prev.1 → prev.1 < prev.2 → prev.2 ≤ n →
    rs.Pairwise (fun a b => a.2 ≤ b.1) → (∀ r ∈ rs, r.1 ≤ r.2 ∧ r.2 < n) → (∀ r ∈ rs, prev.1 ≤ r.1) →
    Separated n lo (merged prev rs) ∧ (merged prev rs).Pairwise (fun a b => a.2 < b.1) ∧ (∀ q ∈ merged prev rs, prev.1 ≤ q.1) ∧
    ∀ m, (∃ q ∈ merged prev rs, q.1 ≤ m ∧ m < q.2) ↔ (prev.1 ≤ m ∧ m < prev.2) ∨ ∃ r ∈ rs, r.1 ≤ m ∧ m ≤ r.2
  | [], prev, lo, h1, h2, h3, _, _, _ => by simp [merged, Separated, h1, h2, h3]
  | r :: rs, prev, lo, h1, h2, h3, hp, hb, hg => by
    rw [List.pairwise_cons] at hp
    have hr := hb r (by simp)
    have hr' := hg r (by simp)
    simp only [merged]
    split
    · next hle =>
      have hmin : min prev.1 r.1 = prev.1 := Nat.min_eq_left hr'
      rw [hmin]
      obtain ⟨i1, i2, i3, i4⟩ := merged_spec (rs := rs) (prev := (prev.1, max prev.2 (r.2 + 1))) (lo := lo) h1 (by simp only; omega) (by simp only; omega)
        hp.2 (fun r' h => hb r' (by simp [h])) (fun r' h => hg r' (by simp [h]))
      refine ⟨i1, i2, i3, fun m => ?_⟩
      rw [i4 m]
      simp only [List.mem_cons, exists_eq_or_imp, ← or_assoc]
      apply or_congr_left
      omega
    · next hle =>
      obtain ⟨i1, i2, i3, i4⟩ := merged_spec (rs := rs) (prev := (r.1, r.2 + 1)) (lo := prev.2) (by simp only; omega) (by simp only; omega) (by simp only; omega)
        hp.2 (fun r' h => hb r' (by simp [h])) (fun r' h => by have := hp.1 r' h; simp only; omega)
      refine ⟨⟨h1, h2, i1⟩, ?_, ?_, fun m => ?_⟩
      · rw [List.pairwise_cons]
        exact ⟨fun q hq => by have := i3 q hq; simp only at this; omega, i2⟩
      · intro q hq
        rcases List.mem_cons.1 hq with rfl | hq
        · exact Nat.le_refl _
        · have := i3 q hq; simp only at this; omega
      · simp only [List.mem_cons, exists_eq_or_imp]
        rw [i4 m]
        apply or_congr_right
        apply or_congr_left
        simp only; omega

/-! ## Twice -/

theorem trim_marked {w cs rest : List Char} (hw : ∀ c ∈ w, EditOps.isWhitespace c = true) {p : Char} {ps : List Char} (hcs : cs = p :: ps)
    (hp : EditOps.isWhitespace p = false) : IsComment cs (w ++ cs ++ rest) := by
  have e1 : (w ++ cs ++ rest).dropWhile EditOps.isWhitespace = cs ++ rest := by
    rw [List.append_assoc, List.dropWhile_append_of_pos hw, hcs, List.cons_append, List.dropWhile_cons_of_neg (by simp [hp])]
  have e2 : cs.dropWhile EditOps.isWhitespace = cs := by rw [hcs, List.dropWhile_cons_of_neg (by simp [hp])]
  unfold IsComment
  simp only [Lsp.trim, e1, e2, List.reverse_append]
  rw [List.dropWhile_append]
  split
  · exact Or.inr rfl
  · left
    rw [List.reverse_append, List.reverse_reverse]
    exact List.prefix_append _ _

theorem unmarked_marked {w cs rest l' : List Char} (hw : ∀ c ∈ w, EditOps.isWhitespace c = true) {p : Char} {ps : List Char} (hcs : cs = p :: ps)
    (hp : EditOps.isWhitespace p = false) (h : Unmarked cs (w ++ cs ++ rest) l') : l' = w ++ rest := by
  have hin : cs <:+: w ++ cs ++ rest := ⟨w, rest, rfl⟩
  rcases h with ⟨w', rest', e, rfl, hj⟩ | ⟨h, _⟩ | ⟨h, _⟩
  · have hle : w'.length ≤ w.length := by
      apply Nat.le_of_not_lt
      intro hlt
      apply hj _ hlt
      rw [List.append_assoc, List.drop_left]
      exact List.prefix_append _ _
    have heq : w'.length = w.length := by
      apply Nat.le_antisymm hle
      apply Nat.le_of_not_lt
      intro hlt
      have a1 : (w ++ cs ++ rest)[w'.length]? = some w[w'.length] := by
        rw [List.append_assoc, List.getElem?_append_left hlt, List.getElem?_eq_getElem hlt]
      have a2 : (w' ++ cs ++ rest')[w'.length]? = some p := by
        rw [List.append_assoc, List.getElem?_append_right (Nat.le_refl _), hcs]; simp
      rw [e, a2] at a1
      simp only [Option.some.injEq] at a1
      have := hw w[w'.length] (List.getElem_mem _)
      rw [← a1, hp] at this
      exact absurd this (by simp)
    rw [List.append_assoc, List.append_assoc] at e
    obtain ⟨e1, e2⟩ := List.append_inj e heq.symm
    rw [List.append_cancel_left_eq] at e2
    rw [e1, e2]
  · exact absurd hin h
  · exact absurd hin h

theorem take_blank {l : List Char} {k : Nat} (h : k ≤ margin l) : ∀ c ∈ l.take k, space c = true := by
  intro c hc
  unfold margin at h
  split at h
  · next ha => exact List.all_eq_true.1 ha c (List.mem_of_mem_take hc)
  · have e : l.take k = (l.takeWhile space).take k := by
      conv => lhs; rw [← List.takeWhile_append_dropWhile (p := space) (l := l)]
      rw [List.take_append_of_le_length h]
    rw [e] at hc
    exact List.all_eq_true.1 List.all_takeWhile c (List.mem_of_mem_take hc)

theorem blank_white {c : Char} (h : space c = true) : EditOps.isWhitespace c = true := by
  simp only [space, List.contains_iff_mem, List.mem_cons, List.not_mem_nil, or_false] at h
  rcases h with rfl | rfl <;> decide

theorem margin_newline {b : List Char} : margin (b ++ ['\n']) ≤ b.length := by
  have hn : space '\n' = false := by decide
  unfold margin
  split
  · exact Nat.zero_le _
  · rw [List.takeWhile_append]
    split
    · simp [hn]
    · exact (List.takeWhile_sublist _).length_le

/-- Edits that leave the newlines alone. -/
theorem isLines_editLines {ed : Nat → List Char → LineEdit} : ∀ {d : List (List Char)} {i : Nat}, IsLines d →
    (∀ n l, d[n]? = some l → (∀ b, l = b ++ ['\n'] → '\n' ∉ b → ∃ b', editLine (ed (i + n) l) l = b' ++ ['\n'] ∧ '\n' ∉ b') ∧
      ('\n' ∉ l → '\n' ∉ editLine (ed (i + n) l) l)) → IsLines (editLines ed i d)
  | [], _, h, _ => h
  | [l], i, h, hk => (hk 0 l rfl).2 h
  | l :: a :: as, i, ⟨⟨b, e, hb⟩, h2⟩, hk => by
    refine ⟨(hk 0 l rfl).1 b e hb, isLines_editLines (d := a :: as) (i := i + 1) h2 (fun n l' hl' => ?_)⟩
    have := hk (n + 1) l' hl'
    rwa [show i + (n + 1) = i + 1 + n by omega] at this

end Syntect

open Syntect

/-- **C91.** Comments are toggled without a panic, and the lines become what `Toggled` says. -/
theorem C91_toggle (text : List Char) (comment : Nat → Option (List Char)) (ranges : List (Nat × Nat)) (h : Separated (linesOf text).length 0 ranges) :
    ∃ d, ∃ lines' : List (List Char), toggleComment text comment ranges = some d ∧ afterEdit text d = some lines'.flatten ∧ Toggled comment ranges (linesOf text) lines' := by
  obtain ⟨d, h1, h2⟩ := toggle_run text comment ranges h
  exact ⟨d, _, h1, h2, toggled_editLines h⟩

/-- **C91.** The core names each selected line, in ranges that do not touch. -/
theorem C91_ranges {n : Nat} {regions : List (Nat × Nat)} (h : regions.Pairwise (fun a b => a.2 ≤ b.1)) (hb : ∀ r ∈ regions, r.1 ≤ r.2 ∧ r.2 < n) :
    Separated n 0 (selectedLineRanges regions) ∧ (selectedLineRanges regions).Pairwise (fun a b => a.2 < b.1) ∧
    ∀ m, (∃ q ∈ selectedLineRanges regions, q.1 ≤ m ∧ m < q.2) ↔ ∃ r ∈ regions, r.1 ≤ m ∧ m ≤ r.2 := by
  cases regions with
  | nil => exact ⟨Nat.zero_le _, by simp [selectedLineRanges, finishRanges], by simp [selectedLineRanges, finishRanges]⟩
  | cons r rs =>
    rw [List.pairwise_cons] at h
    have hr := hb r (by simp)
    have e : selectedLineRanges (r :: rs) = merged (r.1, r.2 + 1) rs := by
      unfold selectedLineRanges
      rw [List.foldl_cons]
      exact combine_fold
    rw [e]
    obtain ⟨h1, h2, _, h3⟩ := merged_spec (n := n) (rs := rs) (prev := (r.1, r.2 + 1)) (lo := 0) (Nat.zero_le _) (by simp only; omega) (by simp only; omega)
      h.2 (fun r' h => hb r' (by simp [h])) (fun r' h' => by have := h.1 r' h'; simp only; omega)
    refine ⟨h1, h2, fun m => ?_⟩
    rw [h3 m]
    simp only [List.mem_cons, exists_eq_or_imp]
    apply or_congr_left
    omega

/-- **C91.** A range of lines none of which is a comment is restored when comments are toggled a second time. -/
theorem C91_twice_partial (text : List Char) (comment : Nat → Option (List Char)) (ranges : List (Nat × Nat)) (h : Separated (linesOf text).length 0 ranges)
    (hm : ∀ r ∈ ranges, ∃ p ps, comment r.1 = some (p :: ps) ∧ EditOps.isWhitespace p = false ∧ '\n' ∉ p :: ps ∧
      ∀ l ∈ within (linesOf text) r, ¬ IsComment (p :: ps) l) :
    ∃ d text' d', toggleComment text comment ranges = some d ∧ afterEdit text d = some text' ∧
      toggleComment text' comment ranges = some d' ∧ afterEdit text' d' = some text := by
  obtain ⟨d, h1, h2⟩ := toggle_run text comment ranges h
  have ht := toggled_editLines (comment := comment) h
  -- the lines after the first time
  have hin : ∀ n r l, rangeWith ranges n = some r → (linesOf text)[n]? = some l → ∃ p ps w rest, comment r.1 = some (p :: ps) ∧
      EditOps.isWhitespace p = false ∧ '\n' ∉ p :: ps ∧ l = w ++ rest ∧ (∀ c ∈ w, space c = true) ∧ (∀ b, l = b ++ ['\n'] → w.length ≤ b.length) ∧
      (editLines (toggleEd (linesOf text) comment ranges) 0 (linesOf text))[n]? = some (w ++ (p :: ps) ++ rest) := by
    intro n r l hr hl
    obtain ⟨hrm, g1, g2⟩ := rangeWith_some hr
    obtain ⟨_, g3, g4⟩ := separated_mem h r hrm
    obtain ⟨p, ps, hc, hp, hnl, hno⟩ := hm r hrm
    obtain ⟨k, ⟨hk, _⟩, hline⟩ := ht.insert r hrm _ hc (fun f hf => hno f (mem_within (Nat.le_refl _) g3 hf))
    have hlm := mem_within g1 g2 hl
    have := hline n g1 g2 l hl
    have hnp : ¬ (p :: ps) <+: Lsp.trim l := fun hx => hno l hlm (Or.inl hx)
    rw [if_neg hnp] at this
    refine ⟨p, ps, l.take k, l.drop k, hc, hp, hnl, (List.take_append_drop _ _).symm, take_blank (hk l hlm), fun b e => ?_, this⟩
    have h1 := hk l hlm
    rw [e] at h1
    have h2 := margin_newline (b := b)
    rw [List.length_take]
    omega
  have hshape : IsLines (editLines (toggleEd (linesOf text) comment ranges) 0 (linesOf text)) := by
    refine isLines_editLines (isLines_linesOf text) (fun n l hl => ?_)
    rw [Nat.zero_add]
    cases hr : rangeWith ranges n with
    | none => simp only [toggleEd, hr, editLine]; exact ⟨fun b e hb => ⟨b, e, hb⟩, id⟩
    | some r =>
      obtain ⟨p, ps, w, rest, hc, hp, hnl, e, hw, hlen, hx⟩ := hin n r l hr hl
      rw [editLines_getElem?, hl] at hx
      simp only [Nat.zero_add, Option.map_some, Option.some.injEq] at hx
      rw [hx]
      refine ⟨fun b eb hb => ?_, fun hnot => ?_⟩
      · have hl2 := hlen b eb
        have e3 : w ++ rest = b ++ ['\n'] := e.symm.trans eb
        obtain ⟨rest', rfl⟩ : w <+: b := List.prefix_of_prefix_length_le ⟨rest, e3⟩ (List.prefix_append _ _) hl2
        rw [List.append_assoc, List.append_cancel_left_eq] at e3
        refine ⟨w ++ (p :: ps) ++ rest', by rw [e3]; simp, ?_⟩
        simp only [List.mem_append, not_or] at hb ⊢
        exact ⟨⟨hb.1, hnl⟩, hb.2⟩
      · rw [e] at hnot
        simp only [List.mem_append, not_or] at hnot ⊢
        exact ⟨⟨hnot.1, hnl⟩, hnot.2⟩
  have hlines := linesOf_flatten hshape
  have hlen : (editLines (toggleEd (linesOf text) comment ranges) 0 (linesOf text)).length = (linesOf text).length := by
    have gen : ∀ (ed : Nat → List Char → LineEdit) (ls : List (List Char)) (i : Nat), (editLines ed i ls).length = ls.length := by
      intro ed ls
      induction ls with
      | nil => intro i; rfl
      | cons l ls ih => intro i; simp [editLines, ih]
    exact gen _ _ _
  have hsep2 : Separated (linesOf (editLines (toggleEd (linesOf text) comment ranges) 0 (linesOf text)).flatten).length 0 ranges := by
    rw [hlines, hlen]; exact h
  obtain ⟨d', h3, h4⟩ := toggle_run _ comment ranges hsep2
  have ht2 := toggled_editLines (comment := comment) hsep2
  refine ⟨d, _, d', h1, h2, h3, ?_⟩
  rw [h4]
  congr 1
  rw [hlines] at ht2 ⊢
  conv => rhs; rw [← flatten_linesOf text]
  congr 1
  apply List.ext_getElem?
  intro n
  cases hr : rangeWith ranges n with
  | none => rw [ht2.outside n hr, ht.outside n hr]
  | some r =>
    obtain ⟨hrm, g1, g2⟩ := rangeWith_some hr
    obtain ⟨_, g3, g4⟩ := separated_mem h r hrm
    have hl : (linesOf text)[n]? = some (linesOf text)[n] := List.getElem?_eq_getElem (by omega)
    have hf : (linesOf text)[r.1]? = some (linesOf text)[r.1] := List.getElem?_eq_getElem (by omega)
    obtain ⟨p, ps, w, rest, hc, hp, hnl, e, hw, _, hx⟩ := hin n r _ hr hl
    obtain ⟨p', ps', w0, rest0, hc0, hp0, hnl0, e0, hw0, _, hx0⟩ := hin r.1 r _ (rangeWith_of_mem h r hrm r.1 (Nat.le_refl _) g3) hf
    rw [hc] at hc0
    simp only [Option.some.injEq] at hc0
    have hcom : ∀ f, (editLines (toggleEd (linesOf text) comment ranges) 0 (linesOf text))[r.1]? = some f → IsComment (p :: ps) f := by
      intro f hf'
      rw [hx0] at hf'
      simp only [Option.some.injEq] at hf'
      rw [← hf', ← hc0]
      exact trim_marked (fun c hc => blank_white (hw0 c hc)) rfl hp
    obtain ⟨l', q1, q2⟩ := ht2.remove r hrm _ hc hcom n g1 g2 _ hx
    rw [q1, unmarked_marked (fun c hc => blank_white (hw c hc)) rfl hp q2, hl, ← e]

/-- **C91.** Where a range begins with a comment, its comments lose their first markers and nothing else. -/
theorem C91_uncomment_partial (text : List Char) (comment : Nat → Option (List Char)) (ranges : List (Nat × Nat)) (h : Separated (linesOf text).length 0 ranges)
    {r : Nat × Nat} (hr : r ∈ ranges) {p : Char} {ps : List Char} (hc : comment r.1 = some (p :: ps)) (hp : EditOps.isWhitespace p = false)
    (hf : ∀ f, (linesOf text)[r.1]? = some f → IsComment (p :: ps) f) :
    ∃ d, ∃ lines' : List (List Char), toggleComment text comment ranges = some d ∧ afterEdit text d = some lines'.flatten ∧
      ∀ n w rest, r.1 ≤ n → n < r.2 → (∀ c ∈ w, EditOps.isWhitespace c = true) → (linesOf text)[n]? = some (w ++ (p :: ps) ++ rest) → lines'[n]? = some (w ++ rest) := by
  obtain ⟨d, lines', h1, h2, ht⟩ := C91_toggle text comment ranges h
  refine ⟨d, lines', h1, h2, fun n w rest g1 g2 hw hl => ?_⟩
  obtain ⟨l', q1, q2⟩ := ht.remove r hr _ hc hf n g1 g2 _ hl
  rw [q1, unmarked_marked hw rfl hp q2]

/-- What toggling comments with the marker `// ` in the lines from `start` to `stop` makes of a text. -/
def Syntect.slashes (text : String) (start stop : Nat) : Option String :=
  ((toggleComment text.toList (fun _ => some "// ".toList) [(start, stop)]).bind (afterEdit text.toList)).map String.ofList

/-- **C91, refuted.** Where a range begins with a comment, a line that is no comment loses a marker from within it. -/
theorem C91_inside_refuted : slashes "// a\nu = \"// b\"\n" 0 2 = some "a\nu = \"b\"\n" := by decide +kernel

/-- **C91, refuted.** An indented marker without its blank stays, and the line loses its indentation instead. -/
theorem C91_indented_refuted : slashes "    //\n" 0 1 = some "  //\n" := by decide +kernel

/-- **C91, refuted.** A range that has both kinds of lines is not restored. -/
theorem C91_twice_refuted : (slashes "a\n// b\n" 0 2).bind (fun t => slashes t 0 2) = some "a\nb\n" := by decide +kernel

/-- The marker goes to the least margin of the lines. -/
example : slashes "  a\n    b\nc\n" 0 2 = some "  // a\n  //   b\nc\n" := by decide +kernel

example : (slashes "  a\n    b\nc\n" 0 2).bind (fun t => slashes t 0 2) = some "  a\n    b\nc\n" := by decide +kernel

example : selectedLineRanges [(0, 0), (0, 1), (2, 2), (5, 6)] = [(0, 3), (5, 7)] := by decide +kernel

example : Separated (linesOf "  a\n    b\nc\n".toList).length 0 [(0, 2)] ∧
    ∀ l ∈ within (linesOf "  a\n    b\nc\n".toList) (0, 2), ¬ IsComment "// ".toList l := by
  refine ⟨⟨by decide, by decide, ?_⟩, by decide +kernel⟩
  show 2 ≤ (linesOf "  a\n    b\nc\n".toList).length
  decide +kernel

example : ∀ f, (linesOf "// a\n  // b\n".toList)[0]? = some f → IsComment "// ".toList f := by
  intro f hf
  have : (linesOf "// a\n  // b\n".toList)[0]? = some "// a\n".toList := by decide +kernel
  rw [this] at hf
  simp only [Option.some.injEq] at hf
  subst hf
  decide +kernel

end Xi
