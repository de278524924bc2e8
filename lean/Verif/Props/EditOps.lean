import Verif.Core.EditOpsLemmas
import Verif.Props.Backspace
import Verif.Props.WordBoundaries

/-!
# Editing commands with many cursors (core-lib/src/edit_ops.rs): C43
-/

namespace Xi

open Find Selection EditOps

section
variable {r : Rope} {s : Selection}

/-- **C43.** Replacements that start and end between characters keep the text valid UTF-8. -/
theorem C43_utf8 {t : List UInt8} (ht : Utf8 t) : ∀ {script : Script} {lo : Nat}, ScriptOk t.length lo script → CharBoundary t lo →
    (∀ x ∈ script, CharBoundary t x.1 ∧ CharBoundary t x.2.1 ∧ Utf8 x.2.2) → Utf8 (replaced t lo script)
  | [], lo, h, hl, _ => by
    have := Diff.slice_utf8 ht hl (q := t.length) (by obtain ⟨cs, rfl⟩ := ht; exact ⟨cs, [], by simp, rfl⟩) h
    rwa [List.take_length] at this
  | (a, b, z) :: rest, lo, h, hl, hx => by
    obtain ⟨h1, h2, h3⟩ := hx (a, b, z) (by simp)
    exact utf8_append (utf8_append (Diff.slice_utf8 ht hl h1 h.1) h3) (C43_utf8 ht h.2.2 h2 (fun x hx' => hx x (by simp [hx'])))

/-- **C43.** Typing replaces every region by the text. -/
theorem C43_insert (hr : r.Balanced) (hs : Valid r s) (text : List UInt8) :
    Makes r.text (insert r s text) (s.flatMap (fun q => [(q.lo, q.hi, text)])) :=
  buildWith_makes hr (fun q _ b => replaceIn_eq (lo_le q) text) (hs.scriptOk (fun q _ => ⟨Nat.le_refl _, lo_le q, Nat.le_refl _⟩))

/-- **C43.** So does the Enter key, with the line ending of the settings. -/
theorem C43_newline (hr : r.Balanced) (hs : Valid r s) (config : EditConfig) :
    Makes r.text (insertNewline r s config) (s.flatMap (fun q => [(q.lo, q.hi, config.lineEnding)])) := C43_insert hr hs _

/-- **C43.** Surrounding inserts before and after every region, and leaves the regions. -/
theorem C43_surround (hr : r.Balanced) (hs : Valid r s) (before after : List UInt8) :
    Makes r.text (surround r s before after) (s.flatMap (fun q => [(q.lo, q.lo, before), (q.hi, q.hi, after)])) := by
  refine buildWith_makes hr ?_ (hs.scriptOk (fun q _ => ⟨Nat.le_refl _, Nat.le_refl _, lo_le q, Nat.le_refl _, Nat.le_refl _⟩))
  intro q _ b
  show (replaceIn b q.lo q.lo before).bind (fun b => replaceIn b q.hi q.hi after) = _
  rw [show [(q.lo, q.lo, before), (q.hi, q.hi, after)] = [(q.lo, q.lo, before)] ++ [(q.hi, q.hi, after)] from rfl, deltaRun_append,
    replaceIn_eq (Nat.le_refl _)]
  congr 1
  funext b
  exact replaceIn_eq (Nat.le_refl _) _

/-- **C43.** Changing the text of the selection replaces every region by what its text becomes. -/
theorem C43_transform (hr : r.Balanced) (hs : Valid r s) (f : List UInt8 → List UInt8) :
    Makes r.text (transformText f r s) (s.flatMap (fun q => [(q.lo, q.hi, f (piece r.text q.lo q.hi))])) := by
  refine buildWith_makes hr ?_ (hs.scriptOk (fun q _ => ⟨Nat.le_refl _, lo_le q, Nat.le_refl _⟩))
  intro q hq b
  have hb := hs.lo_hi hq
  have hle : q.hi ≤ r.len := by rw [Rope.len_eq hr]; exact hs.hi_le hq
  rw [transformStep, interval_lo_hi]
  simp only [Option.bind_eq_bind, Option.bind_some]
  rw [Rope.sliceToCow_spec hr (lo := q.lo) (hi := q.hi) (by simp [Bounds.intoInterval]) hb.1 hb.2, deltaRun_one]
  rfl

theorem deleteStep_eq (q : SelRegion) (b : Builder) : deleteStep b q = b.run (if q.isCaret then [] else [(q.lo, q.hi, [])]) := by
  rw [deleteStep, interval_lo_hi]
  simp only [Option.bind_eq_bind, Option.bind_some, delete_eq]
  by_cases h : q.isCaret
  · have h' : q.start = q.stop := by simpa [SelRegion.isCaret] using h
    rw [caret_iff] at h'
    rw [if_pos (by omega), if_pos h]
    rfl
  · have h' : q.start ≠ q.stop := by simpa [SelRegion.isCaret] using h
    rw [Ne, caret_iff] at h'
    have := lo_le q
    rw [if_neg (by omega), if_neg h, deltaRun_one]

/-- **C43.** Deleting the selection keeps exactly the bytes that are not selected. -/
theorem C43_delete (hr : r.Balanced) (hs : Valid r s) :
    ∃ d, deleteSelRegions r s = some d ∧ d.WF ∧ d.baseLen = r.text.length ∧ d.apply r.text = some (kept r.text (fun k => ¬ Has s k)) := by
  have hok : ScriptOk r.text.length 0 (s.flatMap (fun q => (if q.isCaret then [] else [(q.lo, q.hi, [])] : Script))) := by
    refine hs.scriptOk (fun q _ => ?_)
    split
    · exact lo_le q
    · exact ⟨Nat.le_refl _, lo_le q, Nat.le_refl _⟩
  obtain ⟨d, h1, h2, h3, h4⟩ := buildWith_makes hr (fun q _ b => deleteStep_eq q b) hok
  refine ⟨d, h1, h2, h3, ?_⟩
  rw [h4, replaced_kept_zero hok]
  · intro x hx
    obtain ⟨q, hq, hx⟩ := List.mem_flatMap.1 hx
    split at hx
    · simp at hx
    · simp only [List.mem_singleton] at hx; rw [hx]
  · intro i
    simp only [Has, not_exists, not_and]
    constructor
    · intro h x hx
      obtain ⟨q, hq, hx⟩ := List.mem_flatMap.1 hx
      split at hx
      · simp at hx
      · simp only [List.mem_singleton] at hx; rw [hx]; exact h q hq
    · intro h q hq h1 h2
      refine h (q.lo, q.hi, []) (List.mem_flatMap.2 ⟨q, hq, ?_⟩) h1 h2
      have : q.isCaret = false := by
        have hn : ¬ q.lo = q.hi := by omega
        rw [← caret_iff] at hn
        simpa [SelRegion.isCaret] using hn
      simp [this]

theorem extract_fold (hr : r.Balanced) : ∀ {s : Selection} {acc : Option (List UInt8)}, (∀ q ∈ s, CharBoundary r.text q.lo ∧ CharBoundary r.text q.hi) →
    s.foldlM (extractStep r) acc = some ((ranges s).foldl (fun acc q => match acc with
      | none => some (piece r.text q.lo q.hi)
      | some x => some (x ++ newline :: piece r.text q.lo q.hi)) acc)
  | [], acc, _ => rfl
  | q :: s, acc, h => by
    rw [List.foldlM_cons]
    have hq := h q (by simp)
    have ih := fun a => extract_fold hr (s := s) (acc := a) (fun q hq => h q (by simp [hq]))
    by_cases hc : q.isCaret
    · rw [extractStep, if_pos hc]
      simp only [Option.bind_eq_bind, Option.bind_some, ih, ranges, List.filter_cons, hc, Bool.not_true, Bool.false_eq_true, if_false]
    · rw [extractStep, if_neg hc, interval_lo_hi]
      simp only [Option.bind_eq_bind, Option.bind_some]
      have hle : q.hi ≤ r.len := by rw [Rope.len_eq hr]; exact boundary_le hq.2
      rw [Rope.sliceToCow_spec hr (lo := q.lo) (hi := q.hi) (by simp [Bounds.intoInterval]) hq.1 hq.2]
      have hc' : q.isCaret = false := by simpa using hc
      simp only [ranges, List.filter_cons, hc', Bool.not_false, if_true, List.foldl_cons]
      cases acc <;> simp only [Option.pure_def, Option.bind_some, ih, ranges, piece]

theorem join_fold : ∀ (l : List (List UInt8)) (x : List UInt8), l.foldl (fun (acc : Option (List UInt8)) y => match acc with
    | none => some y
    | some x => some (x ++ newline :: y)) (some x) = some ([newline].intercalate (x :: l))
  | [], x => by simp [List.intercalate]
  | y :: l, x => by
    rw [List.foldl_cons, join_fold l]
    cases l <;> simp [List.intercalate, List.intersperse]

/-- **C43.** Copying gives the texts of the regions that are not carets, with newlines between them. -/
theorem C43_extract (hr : r.Balanced) (hs : Valid r s) :
    extractSelRegions r s = some (if ranges s = [] then none else some ([newline].intercalate ((ranges s).map (fun q => piece r.text q.lo q.hi)))) := by
  rw [extractSelRegions, extract_fold hr (fun q hq => hs.lo_hi hq)]
  cases h : ranges s with
  | nil => rfl
  | cons q l =>
    have := join_fold (l.map (fun q => piece r.text q.lo q.hi)) (piece r.text q.lo q.hi)
    rw [List.foldl_map] at this
    rw [List.foldl_cons, if_neg (by simp), List.map_cons, ← this]

/-! ## Deleting by movement -/

/-- **C43 (in part).** Deleting by a movement deletes the selected regions, and for every caret the bytes between it
and where the movement takes it; each byte goes once, whatever overlaps. What is deleted can be saved.
Missing: the two movements of C69 that can panic. -/
theorem C43_delete_by_movement_partial {g : Graphemes} {lo : LineOffset} {starts : List Nat} (hr : r.Balanced) (hg : g.Ok) (hl : IsLines r lo starts)
    (hc : Clamps r lo starts) (hs : Valid r s) (m : Movement) (height : Nat) (save : Bool)
    (safe : ∀ q ∈ s, q.isCaret = true → m.Safe starts r.text.length q true) :
    ∃ moved dels d, s.mapM (movementRegion g r lo m height) = some moved ∧
      (∀ q ∈ s, q.isCaret = false → movementRegion g r lo m height q = some q) ∧
      (∀ q ∈ s, q.isCaret = true → ∃ p h, movementRegion g r lo m height q = some ⟨q.start, p, h, false⟩ ∧
        MovesTo g r.text starts height true q p h m) ∧
      deletions g r s lo m height = some dels ∧ Valid r dels ∧ (∀ k, Has dels k ↔ ∃ q ∈ moved, q.lo ≤ k ∧ k < q.hi) ∧
      deleteByMovement g r s lo m height save =
        some (d, if save then some ([newline].intercalate ((ranges dels).map (fun q => piece r.text q.lo q.hi))) else none) ∧
      d.WF ∧ d.baseLen = r.text.length ∧ d.apply r.text = some (kept r.text (fun k => ¬ ∃ q ∈ moved, q.lo ≤ k ∧ k < q.hi)) := by
  have h1 : ∀ q ∈ s, q.isCaret = false → movementRegion g r lo m height q = some q := by
    intro q _ h
    simp [movementRegion, h]
  have h2 : ∀ q ∈ s, q.isCaret = true → ∃ p h, movementRegion g r lo m height q = some ⟨q.start, p, h, false⟩ ∧
      MovesTo g r.text starts height true q p h m ∧ CharBoundary r.text p := by
    intro q hq h
    obtain ⟨p, x, e1, e2, e3⟩ := C69_region_partial hr hg hl hc m (hs.ends q hq).1 (hs.ends q hq).2 height true (safe q hq h)
    exact ⟨p, x, by simpa [movementRegion, h] using e1, e2, e3⟩
  obtain ⟨moved, hm⟩ : ∃ moved, s.mapM (movementRegion g r lo m height) = some moved := by
    apply mapM_exists
    intro q hq
    cases h : q.isCaret with
    | false => exact ⟨q, h1 q hq h⟩
    | true => obtain ⟨p, x, e, -⟩ := h2 q hq h; exact ⟨_, e⟩
  obtain ⟨dels, e1, e2, e3, e4, e5⟩ := fold_add (fun y => y) moved (s := []) List.Pairwise.nil
  have hd : deletions g r s lo m height = some dels := by rw [deletions, fold_add_opt hm]; exact e1
  have hv : Valid r dels := by
    refine ⟨e2, fold_add_ends List.Pairwise.nil e1 ?_ (by simp)⟩
    intro y hy
    obtain ⟨q, hq, e⟩ := mem_mapM hm y hy
    cases h : q.isCaret with
    | false =>
      rw [h1 q hq h] at e
      injection e with e
      subst e
      exact hs.ends q hq
    | true =>
      obtain ⟨p, x, e', -, e6⟩ := h2 q hq h
      rw [e] at e'
      injection e' with e'
      subst e'
      exact ⟨(hs.ends q hq).1, e6⟩
  have hk : ∀ k, Has dels k ↔ ∃ q ∈ moved, q.lo ≤ k ∧ k < q.hi := by
    intro k
    rw [e3]
    simp [Has]
  obtain ⟨d, d1, d2, d3, d4⟩ := C43_delete hr hv
  refine ⟨moved, dels, d, hm, h1, fun q hq h => ?_, hd, hv, hk, ?_, d2, d3, ?_⟩
  · obtain ⟨p, x, e, e', -⟩ := h2 q hq h
    exact ⟨p, x, e, e'⟩
  · simp only [deleteByMovement, hd, Option.bind_eq_bind, Option.bind_some]
    cases save with
    | false => simp [d1]
    | true =>
      rw [if_pos rfl, C43_extract hr hv, d1]
      simp only [Option.map_some, Option.bind_some, if_true, Option.pure_def, Option.some.injEq, Prod.mk.injEq, true_and]
      split
      · rename_i e; simp [e, List.intercalate]
      · rfl
  · rw [d4]
    congr 2
    funext k
    rw [hk]

/-! ## Lines -/

theorem onLine_mono {starts : List Nat} (hp : starts.Pairwise (· < ·)) {n s o n' s' o' : Nat} (h : OnLine starts n s o) (h' : OnLine starts n' s' o')
    (hle : o ≤ o') : n ≤ n' := by
  apply Classical.byContradiction
  intro hn
  have hlt : n' + 1 < starts.length := by
    have := (List.getElem?_eq_some_iff.1 h.start).1
    omega
  obtain ⟨e, he⟩ : ∃ e, starts[n' + 1]? = some e := ⟨_, List.getElem?_eq_getElem hlt⟩
  have h1 := h'.lt e he
  have h2 := h.le
  rcases Nat.lt_or_ge (n' + 1) n with c | c
  · have := get_lt hp c he h.start
    omega
  · have : n' + 1 = n := by omega
    rw [this, h.start] at he
    injection he with he
    omega

/-- The lines of `get_line_range` are those that the region touches. -/
theorem getLineRange_spec {lo : LineOffset} {starts : List Nat} (hl : IsLines r lo starts) {q : SelRegion} (h1 : CharBoundary r.text q.lo)
    (h2 : CharBoundary r.text q.hi) : ∃ first past, lo.getLineRange r q = some (first, past) ∧ first < past ∧
      (∃ s, OnLine starts first s q.lo) ∧ ∀ n, Touches starts q n ↔ first ≤ n ∧ n < past := by
  obtain ⟨n1, s1, o1⟩ := hl.onLine q.lo
  obtain ⟨n2, s2, o2⟩ := hl.onLine q.hi
  have hle := lo_le q
  have h12 := onLine_mono hl.sorted o1 o2 hle
  refine ⟨n1, (if q.hi - s2 = 0 ∧ n2 > n1 then n2 - 1 else n2) + 1, ?_, by split <;> omega, ⟨s1, o1⟩, ?_⟩
  · simp [LineOffset.getLineRange, hl.lineCol h1 o1, hl.lineCol h2 o2]
  · intro n
    constructor
    · rintro ⟨a, o, ho, ho1, ho2⟩
      have hn1 := onLine_mono hl.sorted o1 ho ho1
      refine ⟨hn1, ?_⟩
      have hn2 := onLine_mono hl.sorted ho o2 (by omega)
      split
      · rename_i c
        have hs2 := o2.le
        have hne : n ≠ n2 := by
          intro hne
          subst hne
          have : a = s2 := by have e := ho.start; rw [o2.start] at e; injection e with e; exact e.symm
          have hoa := ho.le
          rcases ho2 with ho2 | ho2
          · subst ho2
            have := (onLine_unique hl.sorted o1 ho).1
            omega
          · omega
        omega
      · omega
    · rintro ⟨c1, c2⟩
      rcases Nat.eq_or_lt_of_le c1 with c | c
      · subst c
        exact ⟨s1, q.lo, o1, Nat.le_refl _, .inl rfl⟩
      · have hn2 : n ≤ n2 := by split at c2 <;> omega
        have hlt : n < starts.length := by have := (List.getElem?_eq_some_iff.1 o2.start).1; omega
        obtain ⟨a, ha⟩ : ∃ a, starts[n]? = some a := ⟨_, List.getElem?_eq_getElem hlt⟩
        have hon : OnLine starts n a a := ⟨ha, Nat.le_refl _, fun e he => get_lt hl.sorted (Nat.lt_succ_self n) ha he⟩
        have hal : q.lo < a := by
          apply Classical.byContradiction
          intro hge
          have := onLine_mono hl.sorted hon o1 (by omega)
          omega
        refine ⟨a, a, hon, by omega, .inr ?_⟩
        rcases Nat.eq_or_lt_of_le hn2 with e | e
        · subst e
          rw [o2.start] at ha
          injection ha with ha
          subst ha
          have := o2.le
          split at c2 <;> omega
        · have := get_lt hl.sorted e ha o2.start
          have := o2.le
          omega

theorem mem_setInsert {β : Type} [DecidableEq β] {lt : β → β → Bool} {x : β} : ∀ {l : List β} {y : β}, y ∈ setInsert lt x l ↔ y = x ∨ y ∈ l
  | [], y => by simp [setInsert]
  | z :: l, y => by
    simp only [setInsert]
    split
    · rename_i h; subst h; simp
    · split
      · simp
      · simp only [List.mem_cons, mem_setInsert (l := l)]
        constructor
        · rintro (h | h | h) <;> simp [h]
        · rintro (h | h | h) <;> simp [h]

theorem sorted_setInsert {β : Type} [DecidableEq β] {lt : β → β → Bool} (htrans : ∀ x y z, lt x y = true → lt y z = true → lt x z = true)
    (htot : ∀ x y, x ≠ y → lt x y = false → lt y x = true) {x : β} : ∀ {l : List β}, l.Pairwise (fun a b => lt a b = true) →
    (setInsert lt x l).Pairwise (fun a b => lt a b = true)
  | [], _ => by simp [setInsert]
  | z :: l, h => by
    simp only [setInsert]
    split
    · exact h
    · rename_i hne
      split
      · rename_i hlt
        rw [List.pairwise_cons]
        refine ⟨fun y hy => ?_, h⟩
        rcases List.mem_cons.1 hy with rfl | hy
        · exact hlt
        · exact htrans _ _ _ hlt ((List.pairwise_cons.1 h).1 y hy)
      · rename_i hlt
        rw [List.pairwise_cons] at *
        refine ⟨fun y hy => ?_, sorted_setInsert htrans htot h.2⟩
        rcases mem_setInsert.1 hy with rfl | hy
        · exact htot _ _ hne (by simpa using hlt)
        · exact h.1 y hy

theorem natLt_trans (x y z : Nat) (h1 : natLt x y = true) (h2 : natLt y z = true) : natLt x z = true := by
  simp only [natLt, decide_eq_true_eq] at *; omega

theorem natLt_total (x y : Nat) (h1 : x ≠ y) (h2 : natLt x y = false) : natLt y x = true := by
  simp only [natLt, decide_eq_true_eq, decide_eq_false_iff_not] at *; omega

theorem fold_setInsert : ∀ {l lines : List Nat}, lines.Pairwise (fun a b => natLt a b = true) →
    (l.foldl (fun l line => setInsert natLt line l) lines).Pairwise (fun a b => natLt a b = true) ∧
    ∀ n, n ∈ l.foldl (fun l line => setInsert natLt line l) lines ↔ n ∈ lines ∨ n ∈ l
  | [], lines, h => ⟨h, by simp⟩
  | x :: l, lines, h => by
    obtain ⟨h1, h2⟩ := fold_setInsert (l := l) (sorted_setInsert natLt_trans natLt_total (x := x) h)
    refine ⟨h1, fun n => ?_⟩
    rw [List.foldl_cons, h2, mem_setInsert, List.mem_cons]
    constructor
    · rintro ((h | h) | h) <;> simp [h]
    · rintro (h | h | h) <;> simp [h]

theorem indentLines_fold (hr : r.Balanced) : ∀ {s : Selection} {lines : List Nat}, lines.Pairwise (fun a b => natLt a b = true) →
    (∀ q ∈ s, CharBoundary r.text q.lo ∧ CharBoundary r.text q.hi) →
    ∃ lines', s.foldlM (indentLinesStep r) lines = some lines' ∧ lines'.Pairwise (fun a b => natLt a b = true) ∧
      ∀ n, n ∈ lines' ↔ n ∈ lines ∨ ∃ q ∈ s, Touches (logicalStarts r.text) q n
  | [], lines, h, _ => ⟨lines, rfl, h, by simp⟩
  | q :: s, lines, h, hb => by
    have hq := hb q (by simp)
    obtain ⟨first, past, e1, e2, -, e3⟩ := getLineRange_spec (logical_isLines hr) hq.1 hq.2
    obtain ⟨f1, f2⟩ := fold_setInsert (l := List.range' first (past - first)) h
    obtain ⟨lines', g1, g2, g3⟩ := indentLines_fold hr (s := s) f1 (fun q hq => hb q (by simp [hq]))
    refine ⟨lines', ?_, g2, fun n => ?_⟩
    · rw [List.foldlM_cons, indentLinesStep, e1]
      exact g1
    · rw [g3, f2, List.mem_range'_1]
      simp only [List.mem_cons, exists_eq_or_imp, e3]
      constructor
      · rintro ((h | h) | h)
        · exact .inl h
        · exact .inr (.inl ⟨h.1, by omega⟩)
        · exact .inr (.inr h)
      · rintro (h | h | h)
        · exact .inl (.inl h)
        · exact .inl (.inr ⟨h.1, by omega⟩)
        · exact .inr h

/-- Where line `n` starts. -/
def lineStart (t : List UInt8) (n : Nat) : Nat := ((logicalStarts t)[n]?).getD 0

/-- Where line `n` ends, with its newline. -/
def lineStop (t : List UInt8) (n : Nat) : Nat := ((logicalStarts t)[n + 1]?).getD t.length

theorem starts_boundary {g : Graphemes} (hg : g.Ok) (hr : r.Balanced) {n a : Nat} (h : (logicalStarts r.text)[n]? = some a) : g.boundary r.text a = true := by
  have hu := Rope.text_utf8 hr
  have := List.mem_of_getElem? h
  rw [logicalStarts_eq, mem_visualStarts] at this
  rcases this.2 with h0 | h0
  · rw [h0]; exact hg.first _ hu
  · rcases h0 with h0 | h0
    · exact hg.after _ _ hu h0
    · exact absurd h0 (no_breaks _)

theorem place_bounds {g : Graphemes} (hg : g.Ok) (hr : r.Balanced) {n col p a : Nat} (ha : (logicalStarts r.text)[n]? = some a)
    (h : PlaceAt g r.text (logicalStarts r.text) n col p) : a ≤ p ∧ p ≤ a + col ∧ p ≤ lineStop r.text n ∧ CharBoundary r.text p ∧ (col = 0 → p = a) := by
  have hl := logical_isLines hr
  obtain ⟨h1, h2⟩ := C69_place_on_line ha (fun e he => get_lt hl.sorted (Nat.lt_succ_self n) ha he) (starts_boundary hg hr ha) (hl.start_le ha) h
  obtain ⟨_, -, h3⟩ := h
  have hc := hg.char _ _ (Rope.text_utf8 hr) h3.2.1
  refine ⟨h1.le, h2, ?_, hc, fun h0 => by have := h1.le; omega⟩
  have := boundary_le hc
  simp only [lineStop]
  cases e : (logicalStarts r.text)[n + 1]? with
  | none => simpa using this
  | some x => have := h1.lt x e; simp only [Option.getD_some]; omega

theorem lines_apart (hr : r.Balanced) {lines : List Nat} (h1 : lines.Pairwise (· < ·)) (h2 : ∀ n ∈ lines, n < (logicalStarts r.text).length) :
    lines.Pairwise (fun x y => lineStop r.text x ≤ lineStart r.text y) := by
  have hl := logical_isLines hr
  refine List.Pairwise.imp_of_mem ?_ h1
  intro x y hx hy hxy
  have hy' := h2 y hy
  obtain ⟨b, hb⟩ : ∃ b, (logicalStarts r.text)[y]? = some b := ⟨_, List.getElem?_eq_getElem hy'⟩
  have hx' : x + 1 < (logicalStarts r.text).length := by omega
  obtain ⟨a, ha⟩ : ∃ a, (logicalStarts r.text)[x + 1]? = some a := ⟨_, List.getElem?_eq_getElem hx'⟩
  simp only [lineStart, lineStop, ha, hb, Option.getD_some]
  rcases Nat.lt_or_ge (x + 1) y with c | c
  · exact Nat.le_of_lt (get_lt hl.sorted c ha hb)
  · have : x + 1 = y := by omega
    rw [this, hb] at ha
    injection ha with ha
    omega

theorem line_bounds (hr : r.Balanced) {n : Nat} (h : n < (logicalStarts r.text).length) :
    lineStart r.text n ≤ lineStop r.text n ∧ lineStop r.text n ≤ r.text.length := by
  have hl := logical_isLines hr
  obtain ⟨a, ha⟩ : ∃ a, (logicalStarts r.text)[n]? = some a := ⟨_, List.getElem?_eq_getElem h⟩
  have := hl.start_le ha
  simp only [lineStart, lineStop, ha, Option.getD_some]
  cases e : (logicalStarts r.text)[n + 1]? with
  | none => simpa using this
  | some x =>
    have := get_lt hl.sorted (Nat.lt_succ_self n) ha e
    have := hl.start_le e
    simp only [Option.getD_some]
    omega

theorem lines_of {lines : List Nat} (hsort : lines.Pairwise (fun a b => natLt a b = true))
    (hmem : ∀ n, n ∈ lines ↔ ∃ q ∈ s, Touches (logicalStarts r.text) q n) :
    lines.Pairwise (· < ·) ∧ ∀ n ∈ lines, n < (logicalStarts r.text).length := by
  refine ⟨hsort.imp (fun h => by simpa [natLt] using h), fun n hn => ?_⟩
  obtain ⟨q, _, a, o, ho, -⟩ := (hmem n).1 hn
  exact (List.getElem?_eq_some_iff.1 ho.start).1

theorem insertAtLine_eq {g : Graphemes} (hg : g.Ok) (hr : r.Balanced) {n : Nat} (hn : n < (logicalStarts r.text).length) (text : List UInt8) (b : Builder) :
    insertAtLine g r text b n = b.run [(lineStart r.text n, lineStart r.text n, text)] := by
  have hl := logical_isLines hr
  obtain ⟨a, ha⟩ : ∃ a, (logicalStarts r.text)[n]? = some a := ⟨_, List.getElem?_eq_getElem hn⟩
  obtain ⟨p, h1, h2⟩ := hl.lineColTo hr hg hn 0
  have hp := (place_bounds hg hr ha h2).2.2.2.2 rfl
  subst hp
  simp only [insertAtLine, h1, Option.bind_eq_bind, Option.bind_some, lineStart, ha, Option.getD_some]
  exact replaceIn_eq (Nat.le_refl _) _

/-- What a tab is with these settings. -/
theorem getTabText_spec (config : EditConfig) (n : Nat) (h : config.translateTabsToSpaces = true → n ≤ 32) :
    getTabText config n = some (if config.translateTabsToSpaces then List.replicate n 32 else [9]) := by
  simp only [getTabText, nSpaces]
  cases e : config.translateTabsToSpaces with
  | false => rfl
  | true => simp [h e]

/-- The text of a tab of `n` columns. -/
def tabText (config : EditConfig) (n : Nat) : List UInt8 := if config.translateTabsToSpaces then List.replicate n 32 else [9]

/-- **C43.** Indenting inserts one tab at the start of every line that a region touches, once for each line. -/
theorem C43_indent {g : Graphemes} (hr : r.Balanced) (hg : g.Ok) (hs : Valid r s) (config : EditConfig)
    (htab : config.translateTabsToSpaces = true → config.tabSize ≤ 32) :
    ∃ lines : List Nat, lines.Pairwise (· < ·) ∧ (∀ n, n ∈ lines ↔ ∃ q ∈ s, Touches (logicalStarts r.text) q n) ∧
      Makes r.text (modifyIndent g r s config true)
        (lines.flatMap (fun n => [(lineStart r.text n, lineStart r.text n, tabText config config.tabSize)])) := by
  obtain ⟨lines, e1, e2, e3⟩ := indentLines_fold hr (lines := []) List.Pairwise.nil (fun q hq => hs.lo_hi hq)
  have hmem : ∀ n, n ∈ lines ↔ ∃ q ∈ s, Touches (logicalStarts r.text) q n := fun n => by rw [e3]; simp
  obtain ⟨h1, h2⟩ := lines_of e2 hmem
  refine ⟨lines, h1, hmem, ?_⟩
  rw [modifyIndent, getTabText_spec config _ htab, e1]
  refine buildWith_makes hr (fun n hn b => insertAtLine_eq hg hr (h2 n hn) _ b) ?_
  exact scriptOk_flatMap (lines_apart hr h1 h2) (fun n hn => ⟨Nat.le_refl _, Nat.le_refl _, (line_bounds hr (h2 n hn)).1⟩)
    (fun n hn => ⟨Nat.zero_le _, (line_bounds hr (h2 n hn)).2⟩) (Nat.zero_le _)

theorem findNonWhitespace_spec : ∀ (cs : List Char), (findNonWhitespace cs = none ∧ ∀ c ∈ cs, isWhitespace c = true) ∨
    ∃ W c R, cs = W ++ c :: R ∧ (∀ c ∈ W, isWhitespace c = true) ∧ isWhitespace c = false ∧ findNonWhitespace cs = some (enc W).length
  | [] => .inl ⟨rfl, by simp⟩
  | c :: cs => by
    cases h : isWhitespace c with
    | false => exact .inr ⟨[], c, cs, rfl, by simp, h, by simp [findNonWhitespace, h, enc]⟩
    | true =>
      rcases findNonWhitespace_spec cs with ⟨h1, h2⟩ | ⟨W, d, R, h1, h2, h3, h4⟩
      · exact .inl ⟨by simp [findNonWhitespace, h, h1], by simpa [h] using h2⟩
      · refine .inr ⟨c :: W, d, R, by rw [h1]; rfl, by simpa [h] using h2, h3, ?_⟩
        simp only [findNonWhitespace, h, h4, if_true, Option.map_some, enc_cons, List.length_append, Option.some.injEq]
        omega

/-- The deletions that outdent line `n`, when `tab` is the text of a tab. Let `p` be the place `tab.length` columns into the line. If the line starts
with `tab` up to there, that goes; if not, the white space before the first other character, if there is one before `p`. -/
def OutdentLine (g : Graphemes) (t tab : List UInt8) (n : Nat) (scr : Script) : Prop :=
  ∃ a p, (logicalStarts t)[n]? = some a ∧ PlaceAt g t (logicalStarts t) n tab.length p ∧
    (piece t a p = tab ∧ scr = [(a, p, [])] ∨
    piece t a p ≠ tab ∧ (∃ W c R p', piece t a p = enc (W ++ c :: R) ∧ (∀ c ∈ W, isWhitespace c = true) ∧ isWhitespace c = false ∧
      PlaceAt g t (logicalStarts t) n (enc W).length p' ∧ scr = [(a, p', [])]) ∨
    piece t a p ≠ tab ∧ (∃ W, piece t a p = enc W ∧ (∀ c ∈ W, isWhitespace c = true) ∧ scr = []))

theorem outdentLine_spec {g : Graphemes} (hg : g.Ok) (hr : r.Balanced) {n : Nat} (hn : n < (logicalStarts r.text).length) (tab : List UInt8) :
    ∃ scr, OutdentLine g r.text tab n scr ∧ ∀ b, outdentLine g r tab b n = b.run scr := by
  have hl := logical_isLines hr
  have hu := Rope.text_utf8 hr
  obtain ⟨a, ha⟩ : ∃ a, (logicalStarts r.text)[n]? = some a := ⟨_, List.getElem?_eq_getElem hn⟩
  obtain ⟨p0, h1, h2⟩ := hl.lineColTo hr hg hn 0
  obtain ⟨p, h3, h4⟩ := hl.lineColTo hr hg hn tab.length
  have hp0 := (place_bounds hg hr ha h2).2.2.2.2 rfl
  subst hp0
  obtain ⟨b1, b2, b3, b4, -⟩ := place_bounds hg hr ha h4
  have hch := hl.chars p0 (List.mem_of_getElem? ha)
  have hplen := boundary_le b4
  have hlen : r.len = r.text.length := Rope.len_eq hr
  have hsl := Rope.sliceToCow_spec hr (lo := p0) (hi := p) (range := .range p0 p) (by simp [Bounds.intoInterval, Interval.new, b1]) hch b4
  obtain ⟨cs, hcs⟩ := Diff.slice_utf8 hu hch b4 b1
  have hstep : ∀ b : Builder, outdentLine g r tab b n = (if piece r.text p0 p = tab then b.delete p0 p
      else match findNonWhitespace cs with
        | some firstCharCol => (LineOffset.logicalLines.lineColToOffset g r n firstCharCol).bind (fun x => deleteIn b p0 x)
        | none => some b) := by
    intro b
    simp only [outdentLine, h1, h3, Option.bind_eq_bind, Option.bind_some, Interval.new, b1, if_true, hsl]
    show (if piece r.text p0 p = tab then _ else _) = _
    split
    · rfl
    · rw [hcs, show Find.chars (cs.flatMap String.utf8EncodeChar) = cs from chars_enc cs]
      cases findNonWhitespace cs <;> rfl
  by_cases ht : piece r.text p0 p = tab
  · refine ⟨[(p0, p, [])], ⟨p0, p, ha, h4, .inl ⟨ht, rfl⟩⟩, fun b => ?_⟩
    rw [hstep, if_pos ht, delete_eq, deltaRun_one]
  · rcases findNonWhitespace_spec cs with ⟨f1, f2⟩ | ⟨W, c, R, f1, f2, f3, f4⟩
    · refine ⟨[], ⟨p0, p, ha, h4, .inr (.inr ⟨ht, cs, hcs, f2, rfl⟩)⟩, fun b => ?_⟩
      rw [hstep, if_neg ht, f1]
      rfl
    · obtain ⟨p', h5, h6⟩ := hl.lineColTo hr hg hn (enc W).length
      obtain ⟨c1, -⟩ := place_bounds hg hr ha h6
      refine ⟨[(p0, p', [])], ⟨p0, p, ha, h4, .inr (.inl ⟨ht, W, c, R, p', by rw [← f1]; exact hcs, f2, f3, h6, rfl⟩)⟩, fun b => ?_⟩
      rw [hstep, if_neg ht, f4]
      simp only [h5, Option.bind_some, deleteIn, Interval.new, c1, if_true, Option.bind_eq_bind, delete_eq, deltaRun_one]

/-- **C43.** Outdenting never panics, and changes only the lines that a region touches. -/
theorem C43_outdent {g : Graphemes} (hr : r.Balanced) (hg : g.Ok) (hs : Valid r s) (config : EditConfig)
    (htab : config.translateTabsToSpaces = true → config.tabSize ≤ 32) :
    ∃ (lines : List Nat) (scr : Nat → Script), lines.Pairwise (· < ·) ∧ (∀ n, n ∈ lines ↔ ∃ q ∈ s, Touches (logicalStarts r.text) q n) ∧
      (∀ n ∈ lines, OutdentLine g r.text (tabText config config.tabSize) n (scr n)) ∧
      Makes r.text (modifyIndent g r s config false) (lines.flatMap scr) := by
  obtain ⟨lines, e1, e2, e3⟩ := indentLines_fold hr (lines := []) List.Pairwise.nil (fun q hq => hs.lo_hi hq)
  have hmem : ∀ n, n ∈ lines ↔ ∃ q ∈ s, Touches (logicalStarts r.text) q n := fun n => by rw [e3]; simp
  obtain ⟨h1, h2⟩ := lines_of e2 hmem
  have hex : ∀ n, ∃ scr, n ∈ lines → OutdentLine g r.text (tabText config config.tabSize) n scr ∧
      ∀ b, outdentLine g r (tabText config config.tabSize) b n = b.run scr := by
    intro n
    by_cases hn : n ∈ lines
    · obtain ⟨scr, h⟩ := outdentLine_spec hg hr (h2 n hn) (tabText config config.tabSize)
      exact ⟨scr, fun _ => h⟩
    · exact ⟨[], fun h => absurd h hn⟩
  obtain ⟨scr, hscr⟩ := Classical.axiomOfChoice hex
  refine ⟨lines, scr, h1, hmem, fun n hn => (hscr n hn).1, ?_⟩
  rw [modifyIndent, getTabText_spec config _ htab, e1]
  refine buildWith_makes hr (fun n hn b => (hscr n hn).2 b) ?_
  refine scriptOk_flatMap (lines_apart hr h1 h2) (fun n hn => ?_)
    (fun n hn => ⟨Nat.zero_le _, (line_bounds hr (h2 n hn)).2⟩) (Nat.zero_le _)
  obtain ⟨a, p, ha, hp, h⟩ := (hscr n hn).1
  have hls : lineStart r.text n = a := by simp [lineStart, ha]
  rw [hls]
  rcases h with ⟨-, h⟩ | ⟨-, W, c, R, p', -, -, -, hp', h⟩ | ⟨-, W, -, -, h⟩
  · obtain ⟨b1, b2, b3, -⟩ := place_bounds hg hr ha hp
    rw [h]
    exact ⟨Nat.le_refl _, b1, b3⟩
  · obtain ⟨b1, b2, b3, -⟩ := place_bounds hg hr ha hp'
    rw [h]
    exact ⟨Nat.le_refl _, b1, b3⟩
  · rw [h, ← hls]
    exact (line_bounds hr (h2 n hn)).1

theorem take_enc_prefix {W X : List Char} {k : Nat} (h : CharBoundary (enc (W ++ X)) k) (hk : k ≤ (enc W).length) :
    ∃ V U, W = V ++ U ∧ (enc (W ++ X)).take k = enc V := by
  rw [boundary_enc] at h
  obtain ⟨xs, ys, e1, rfl⟩ := h
  rcases List.append_eq_append_iff.1 e1 with ⟨a, h1, h2⟩ | ⟨a, h1, h2⟩
  · have ha : (enc a).length = 0 := by rw [h1, enc_append, List.length_append] at hk; omega
    have ha' : a = [] := by cases a with
      | nil => rfl
      | cons c a => have := enc_pos (List.cons_ne_nil c a); omega
    subst ha'
    refine ⟨W, [], by simp, ?_⟩
    rw [e1, enc_append, List.take_left, h1, List.append_nil]
  · exact ⟨xs, a, h1, by rw [e1, enc_append, List.take_left]⟩

/-- **C43.** What outdenting deletes on a line is white space at its start, not longer than a tab, and no part of a character. -/
theorem C43_outdent_whitespace {g : Graphemes} (hr : r.Balanced) (hg : g.Ok) {config : EditConfig} {n : Nat} {scr : Script}
    (h : OutdentLine g r.text (tabText config config.tabSize) n scr) : ∀ x ∈ scr, x.1 = lineStart r.text n ∧ x.2.2 = [] ∧
      x.2.1 ≤ x.1 + (tabText config config.tabSize).length ∧ ∃ W, piece r.text x.1 x.2.1 = enc W ∧ ∀ c ∈ W, isWhitespace c = true := by
  obtain ⟨a, p, ha, hp, h⟩ := h
  have hls : lineStart r.text n = a := by simp [lineStart, ha]
  have hl := logical_isLines hr
  have hu := Rope.text_utf8 hr
  have hch := hl.chars a (List.mem_of_getElem? ha)
  obtain ⟨b1, b2, b3, b4, -⟩ := place_bounds hg hr ha hp
  rw [hls]
  rcases h with ⟨h0, h⟩ | ⟨-, W, c, R, p', h1, h2, h3, hp', h⟩ | ⟨-, W, -, -, h⟩
  · rw [h]
    intro x hx
    simp only [List.mem_singleton] at hx
    subst hx
    refine ⟨rfl, rfl, b2, ?_⟩
    rw [h0, tabText]
    split
    · refine ⟨List.replicate config.tabSize ' ', ?_, ?_⟩
      · generalize config.tabSize = m
        induction m with
        | zero => rfl
        | succ m ih => rw [List.replicate_succ, List.replicate_succ, enc_cons, ih]; rfl
      · intro c hc
        rw [(List.mem_replicate.1 hc).2]
        decide
    · exact ⟨['\t'], rfl, by decide⟩
  · obtain ⟨c1, c2, c3, c4, -⟩ := place_bounds hg hr ha hp'
    rw [h]
    intro x hx
    simp only [List.mem_singleton] at hx
    subst hx
    have hWle : (enc W).length ≤ p - a := by
      have : (piece r.text a p).length = p - a := by
        have := boundary_le b4
        simp only [piece, List.length_drop, List.length_take]
        omega
      rw [h1, enc_append, List.length_append] at this
      omega
    refine ⟨rfl, rfl, by simp only; omega, ?_⟩
    have hpp : p' ≤ p := by omega
    have hcut : piece r.text a p' = (enc (W ++ c :: R)).take (p' - a) := by
      rw [← h1, piece, piece, List.take_drop, List.take_take]
      congr 2
      omega
    have hcb : CharBoundary (enc (W ++ c :: R)) (p' - a) := by
      rw [← h1]
      have u1 := Diff.slice_utf8 hu hch c4 c1
      have u2 := Diff.slice_utf8 hu c4 b4 hpp
      have e : piece r.text a p = piece r.text a p' ++ piece r.text p' p := by
        simp only [piece]
        conv => lhs; rw [← List.take_append_drop p' (r.text.take p), List.take_take, Nat.min_eq_left hpp]
        rw [List.drop_append_of_le_length]
        have := boundary_le c4
        rw [List.length_take]
        omega
      have len : (piece r.text a p').length = p' - a := by
        have := boundary_le c4
        simp only [piece, List.length_drop, List.length_take]
        omega
      rw [e, ← len]
      exact charBoundary_ends u1 u2
    obtain ⟨V, U, hV, e⟩ := take_enc_prefix hcb (by omega)
    refine ⟨V, by rw [hcut, e], fun c hc => h2 c (by rw [hV]; simp [hc])⟩
  · rw [h]; simp

/-! ## Commands that panic if their replacements are not in order -/

/-- Replacements, region by region: if they are in order the command makes them, if not it panics. -/
theorem regions_run (hr : r.Balanced) {β : Type} {step : Builder → β → Option Builder} {l : List β} {P : β → Script → Prop}
    (h : ∀ x ∈ l, ∃ scr, P x scr ∧ (∀ y ∈ scr, y.1 ≤ y.2.1 ∧ y.2.1 ≤ r.text.length) ∧ ∀ b, step b x = b.run scr) :
    ∃ scr : β → Script, (∀ x ∈ l, P x (scr x)) ∧ (Ordered 0 (l.flatMap scr) → Makes r.text (buildWith r l step) (l.flatMap scr)) ∧
      (¬ Ordered 0 (l.flatMap scr) → buildWith r l step = none) := by
  have hex : ∀ x, ∃ scr, x ∈ l → P x scr ∧ (∀ y ∈ scr, y.1 ≤ y.2.1 ∧ y.2.1 ≤ r.text.length) ∧ ∀ b, step b x = b.run scr := by
    intro x
    by_cases hx : x ∈ l
    · obtain ⟨scr, h⟩ := h x hx
      exact ⟨scr, fun _ => h⟩
    · exact ⟨[], fun h => absurd h hx⟩
  obtain ⟨scr, hscr⟩ := Classical.axiomOfChoice hex
  refine ⟨scr, fun x hx => (hscr x hx).1, fun ho => buildWith_makes hr (fun x hx b => (hscr x hx).2.2 b) ?_,
    buildWith_none (fun x hx b => (hscr x hx).2.2 b)⟩
  refine scriptOk_of ho ?_ (Nat.zero_le _)
  intro y hy
  obtain ⟨x, hx, hy⟩ := List.mem_flatMap.1 hy
  exact (hscr x hx).2.1 y hy

/-- What the backspace key deletes for a region. -/
def BackspaceRegion (r : Rope) (config : EditConfig) (q : SelRegion) (scr : Script) : Prop :=
  ∃ a, Backspace.offsetForDeleteBackwards q r config.toBackspaceConfig = some a ∧ CharBoundary r.text a ∧ a ≤ q.lo ∧
    scr = if a < q.hi then [(a, q.hi, [])] else []

/-- **C43 (in part).** Backspace deletes, for every region, what C46 says. It panics exactly when the deletion for one region
starts before the end of another region. Missing: it should never panic (`C43_backspace_refuted`). -/
theorem C43_backspace_partial (hr : r.Balanced) (hs : Valid r s) (config : EditConfig) (htab : 0 < config.tabSize) :
    ∃ scr : SelRegion → Script, (∀ q ∈ s, BackspaceRegion r config q (scr q)) ∧
      (Ordered 0 (s.flatMap scr) → Makes r.text (deleteBackward r s config) (s.flatMap scr)) ∧
      (¬ Ordered 0 (s.flatMap scr) → deleteBackward r s config = none) := by
  refine regions_run hr (P := BackspaceRegion r config) ?_
  intro q hq
  have hle := lo_le q
  have hhi := hs.hi_le hq
  obtain ⟨a, h1, h2, h3⟩ : ∃ a, Backspace.offsetForDeleteBackwards q r config.toBackspaceConfig = some a ∧ CharBoundary r.text a ∧ a ≤ q.lo := by
    by_cases hc : q.start = q.stop
    · have e1 : q.lo = q.start := by simp only [SelRegion.lo]; omega
      rcases Nat.eq_zero_or_pos q.start with h0 | h0
      · exact ⟨0, C46_start hr config.toBackspaceConfig htab q h0 (by omega), rope_boundary_zero hr, Nat.zero_le _⟩
      · obtain ⟨A, D, B, d1, d2, -, d3, -⟩ := C46_backspace hr (hs.ends q hq).1 h0 config.toBackspaceConfig htab q rfl hc.symm
        refine ⟨_, d3, ?_, ?_⟩
        · rw [d1, boundary_enc]; exact ⟨A, D ++ B, by simp, rfl⟩
        · rw [e1, d2, enc_append, List.length_append]; omega
    · exact ⟨q.lo, C46_selection config.toBackspaceConfig q hc, (hs.lo_hi hq).1, Nat.le_refl _⟩
  refine ⟨_, ⟨a, h1, h2, h3, rfl⟩, ?_, ?_⟩
  · intro y hy
    split at hy
    · simp only [List.mem_singleton] at hy; subst hy; exact ⟨by simp only; omega, hhi⟩
    · simp at hy
  · intro b
    simp only [deleteBackwardStep, h1, Option.bind_eq_bind, Option.bind_some, Interval.new, show a ≤ q.hi by omega, if_true, delete_eq]
    by_cases hlt : a < q.hi
    · rw [if_neg (by omega), if_pos hlt, deltaRun_one]
    · rw [if_pos (by omega), if_neg hlt]; rfl

/-- What the tab key does for a region: on one line it is replaced by spaces up to the next tab stop (counted from the column of its anchor), or a
tab character; if it touches many lines, they are indented. -/
def TabRegion (t : List UInt8) (config : EditConfig) (q : SelRegion) (scr : Script) : Prop :=
  (∃ n m a, (∀ k, Touches (logicalStarts t) q k ↔ k = n) ∧ OnLine (logicalStarts t) m a q.start ∧
    scr = [(q.lo, q.hi, tabText config (config.tabSize - (q.start - a) % config.tabSize))]) ∨
  ∃ lines : List Nat, lines.Pairwise (· < ·) ∧ 1 < lines.length ∧ (∀ k, Touches (logicalStarts t) q k ↔ k ∈ lines) ∧
    scr = lines.flatMap (fun n => [(lineStart t n, lineStart t n, tabText config config.tabSize)])

theorem touches_lt {t : List UInt8} {q : SelRegion} {n : Nat} (h : Touches (logicalStarts t) q n) : n < (logicalStarts t).length := by
  obtain ⟨a, o, ho, -⟩ := h
  exact (List.getElem?_eq_some_iff.1 ho.start).1

theorem touches_start {t : List UInt8} {q : SelRegion} {n : Nat} (h : Touches (logicalStarts t) q n) : lineStart t n ≤ q.hi := by
  obtain ⟨a, o, ho, h1, h2⟩ := h
  have := lo_le q
  have := ho.le
  simp only [lineStart, ho.start, Option.getD_some]
  omega

theorem tabRegion_spec {g : Graphemes} (hr : r.Balanced) (hg : g.Ok) (config : EditConfig) (hpos : 0 < config.tabSize)
    (htab : config.translateTabsToSpaces = true → config.tabSize ≤ 32) (hs : Valid r s) {q : SelRegion} (hq : q ∈ s) :
    ∃ scr, TabRegion r.text config q scr ∧ (∀ y ∈ scr, y.1 ≤ y.2.1 ∧ y.2.1 ≤ r.text.length) ∧
      ∀ b, insertTabStep g r config (tabText config config.tabSize) b q = b.run scr := by
  have hl := logical_isLines hr
  have hle := lo_le q
  have hhi := hs.hi_le hq
  obtain ⟨first, past, e1, e2, -, e3⟩ := getLineRange_spec hl (hs.lo_hi hq).1 (hs.lo_hi hq).2
  by_cases hm : past - first > 1
  · refine ⟨_, .inr ⟨List.range' first (past - first), List.pairwise_lt_range', by rw [List.length_range']; exact hm, ?_, rfl⟩, ?_, ?_⟩
    · intro k
      rw [e3, List.mem_range'_1]
      omega
    · intro y hy
      obtain ⟨n, hn, hy⟩ := List.mem_flatMap.1 hy
      simp only [List.mem_singleton] at hy
      subst hy
      refine ⟨Nat.le_refl _, ?_⟩
      have := touches_start ((e3 n).2 (by rw [List.mem_range'_1] at hn; omega))
      simp only
      omega
    · intro b
      simp only [insertTabStep, e1, Option.bind_eq_bind, Option.bind_some, hm, if_true]
      refine fold_scripts b (fun n hn b => insertAtLine_eq hg hr (touches_lt ((e3 n).2 ?_)) _ b)
      rw [List.mem_range'_1] at hn
      omega
  · obtain ⟨m, a, o⟩ := hl.onLine q.start
    refine ⟨_, .inl ⟨first, m, a, ?_, o, rfl⟩, ?_, ?_⟩
    · intro k
      rw [e3]
      omega
    · intro y hy
      simp only [List.mem_singleton] at hy
      subst hy
      exact ⟨hle, hhi⟩
    · intro b
      simp only [insertTabStep, e1, Option.bind_eq_bind, Option.bind_some, hm, if_false, hl.lineCol (hs.ends q hq).1 o, tabAt]
      rw [if_neg (by omega)]
      simp only [Option.bind_some]
      rw [getTabText_spec config _ (fun h => by have := htab h; omega)]
      exact replaceIn_eq hle _

/-- **C43 (in part).** The tab key does for every region what `TabRegion` says, and panics exactly when these replacements are out of order.
Missing: it should never panic (`C43_tab_refuted`). -/
theorem C43_tab_partial {g : Graphemes} (hr : r.Balanced) (hg : g.Ok) (hs : Valid r s) (config : EditConfig) (hpos : 0 < config.tabSize)
    (htab : config.translateTabsToSpaces = true → config.tabSize ≤ 32) :
    ∃ scr : SelRegion → Script, (∀ q ∈ s, TabRegion r.text config q (scr q)) ∧
      (Ordered 0 (s.flatMap scr) → Makes r.text (insertTab g r s config) (s.flatMap scr)) ∧
      (¬ Ordered 0 (s.flatMap scr) → insertTab g r s config = none) := by
  have h : insertTab g r s config = buildWith r s (insertTabStep g r config (tabText config config.tabSize)) := by
    rw [insertTab, getTabText_spec config _ htab]
    rfl
  rw [h]
  exact regions_run hr (P := TabRegion r.text config) (fun q hq => tabRegion_spec hr hg config hpos htab hs hq)

/-- **C43.** It does not panic if no region ends on a line where a later region starts that goes on to another line. -/
theorem C43_tab {g : Graphemes} (hr : r.Balanced) (hg : g.Ok) (hs : Valid r s) (config : EditConfig) (hpos : 0 < config.tabSize)
    (htab : config.translateTabsToSpaces = true → config.tabSize ≤ 32)
    (hap : s.Pairwise (fun a b => ∀ n n', Touches (logicalStarts r.text) b n → Touches (logicalStarts r.text) b n' → n < n' → a.hi ≤ lineStart r.text n)) :
    ∃ scr : SelRegion → Script, (∀ q ∈ s, TabRegion r.text config q (scr q)) ∧ Makes r.text (insertTab g r s config) (s.flatMap scr) := by
  obtain ⟨scr, h1, h2, -⟩ := C43_tab_partial hr hg hs config hpos htab
  refine ⟨scr, h1, h2 ?_⟩
  apply ordered_of (n := r.text.length)
  -- every region's replacements start at the start of its first line or of the region
  refine scriptOk_flatMap (lo := fun q => ((scr q).head?.map Prod.fst).getD q.lo) (hi := SelRegion.hi) ?_ ?_
    (fun q hq => ⟨Nat.zero_le _, hs.hi_le hq⟩) (Nat.zero_le _)
  · refine List.Pairwise.imp_of_mem ?_ (List.pairwise_and_iff.2 ⟨hs.inv, hap⟩)
    rintro a b ha hb ⟨hbef, hab⟩
    rcases h1 b hb with ⟨n, m, x, -, -, e⟩ | ⟨lines, l1, l2, l3, e⟩
    · simp only [e, List.head?_cons, Option.map_some, Option.getD_some]
      exact hbef.1
    · match lines, l2 with
      | n :: n' :: rest, _ =>
        simp only [e, List.flatMap_cons, List.cons_append, List.head?_cons, Option.map_some, Option.getD_some]
        exact hab n n' ((l3 n).2 (by simp)) ((l3 n').2 (by simp)) ((List.pairwise_cons.1 l1).1 n' (by simp))
  · intro q hq
    rcases h1 q hq with ⟨n, m, x, -, -, e⟩ | ⟨lines, l1, l2, l3, e⟩
    · simp only [e, List.head?_cons, Option.map_some, Option.getD_some]
      exact ⟨Nat.le_refl _, lo_le q, Nat.le_refl _⟩
    · have hlt : ∀ n ∈ lines, n < (logicalStarts r.text).length := fun n hn => touches_lt ((l3 n).2 hn)
      have hap := lines_apart hr l1 hlt
      have key : ∀ (l : List Nat) (a : Nat), (∀ n ∈ l, n ∈ lines) → l.Pairwise (fun x y => lineStop r.text x ≤ lineStart r.text y) → a ≤ q.hi → (∀ n ∈ l, a ≤ lineStart r.text n) →
          ScriptOk q.hi a (l.flatMap (fun n => [(lineStart r.text n, lineStart r.text n, tabText config config.tabSize)])) := by
        intro l
        induction l with
        | nil => intro a _ _ h _; exact h
        | cons n l ih =>
          intro a c1 c2 c3 c4
          rw [List.pairwise_cons] at c2
          refine ⟨c4 n (by simp), Nat.le_refl _, ih _ (fun x hx => c1 x (by simp [hx])) c2.2 (touches_start ((l3 n).2 (c1 n (by simp)))) ?_⟩
          intro x hx
          exact Nat.le_trans (line_bounds hr (hlt n (c1 n (by simp)))).1 (c2.1 x hx)
      rw [e]
      match lines, l2, hap, key with
      | n :: n' :: rest, _, hap, key =>
        simp only [List.flatMap_cons, List.cons_append, List.head?_cons, Option.map_some, Option.getD_some]
        have := key (n :: n' :: rest) (lineStart r.text n) (fun x hx => hx) hap (touches_start ((l3 n).2 (by simp))) ?_
        · simpa only [List.flatMap_cons, List.cons_append] using this
        · intro x hx
          rcases List.mem_cons.1 hx with rfl | hx
          · exact Nat.le_refl _
          · exact Nat.le_trans (line_bounds hr (hlt n (by simp))).1 ((List.pairwise_cons.1 hap).1 x hx)

/-- **C43.** With spaces for tabs, a caret comes to a tab stop. -/
theorem C43_tab_stop (config : EditConfig) (hpos : 0 < config.tabSize) (hsp : config.translateTabsToSpaces = true) (col : Nat) :
    (col + (tabText config (config.tabSize - col % config.tabSize)).length) % config.tabSize = 0 := by
  simp only [tabText, hsp, if_true, List.length_replicate]
  have h1 := Nat.mod_lt col hpos
  have h2 := Nat.div_add_mod col config.tabSize
  have : col + (config.tabSize - col % config.tabSize) = config.tabSize * (col / config.tabSize + 1) := by
    rw [Nat.mul_add, Nat.mul_one]; omega
  rw [this, Nat.mul_mod_right]

/-! ## Numbers -/

theorem select_bounds (hr : r.Balanced) {p a b : Nat} (hp : CharBoundary r.text p) (ha : Word.SelectStart r.text p a) (hb : Word.SelectEnd r.text p b) :
    a ≤ p ∧ p ≤ b ∧ CharBoundary r.text a ∧ CharBoundary r.text b := by
  have hu := utf8_enc hr
  have hprev : ∀ {P : Char → Char → Prop} {q : Nat}, IsPrev (Word.From P r.text) p (some q) → q ≤ p ∧ CharBoundary r.text q :=
    fun h => ⟨Nat.le_of_lt h.1, IsPrev.starts_boundary hu h⟩
  have hnext : ∀ {P : Char → Char → Prop} {q : Nat}, IsNext (Word.UpTo P r.text) r.text.length p (some q) → p ≤ q ∧ CharBoundary r.text q :=
    fun h => ⟨Nat.le_of_lt h.1, IsNext.ends_boundary hu h⟩
  obtain ⟨A, B, ht, hpA⟩ := boundary_split hr hp
  have h1 : a ≤ p ∧ CharBoundary r.text a := by
    rcases List.eq_nil_or_concat A with rfl | ⟨A', x, rfl⟩
    · have : p = 0 := hpA
      have := ha.1 this
      subst this
      exact ⟨Nat.zero_le _, rope_boundary_zero hr⟩
    · rw [List.concat_eq_append] at *
      cases B with
      | nil =>
        refine hprev (ha.2.1 ?_ ?_)
        · rw [hpA]; exact enc_pos (by simp)
        · rw [hpA, ht, List.append_nil]
      | cons y B =>
        obtain ⟨c1, c2, c3⟩ := ha.2.2 A' x y B (by rw [ht]; simp) hpA
        by_cases g1 : Word.Enters x y ∨ Word.Blank x y
        · rw [c1 g1]; exact ⟨Nat.le_refl _, hp⟩
        · by_cases g2 : Word.Leaves x y
          · exact hprev (c2 g2)
          · exact hprev (c3 (fun h => g1 (.inl h)) (fun h => g1 (.inr h)) g2)
  have h2 : p ≤ b ∧ CharBoundary r.text b := by
    cases B with
    | nil =>
      have := hb.1 (by rw [hpA, ht, List.append_nil])
      subst this
      exact ⟨Nat.le_refl _, hp⟩
    | cons y B =>
      rcases List.eq_nil_or_concat A with rfl | ⟨A', x, rfl⟩
      · have h0 : p = 0 := hpA
        refine hnext (hb.2.1 h0 ?_)
        rw [h0, ht]
        exact enc_pos (by simp)
      · rw [List.concat_eq_append] at *
        obtain ⟨c1, c2, c3⟩ := hb.2.2 A' x y B (by rw [ht]; simp) hpA
        by_cases g1 : Word.Leaves x y ∨ Word.Blank x y
        · rw [c1 g1]; exact ⟨Nat.le_refl _, hp⟩
        · by_cases g2 : Word.Enters x y
          · exact hnext (c2 g2)
          · exact hnext (c3 g2 (fun h => g1 (.inr h)) (fun h => g1 (.inl h)))
  exact ⟨h1.1, h2.1, h1.2, h2.2⟩

/-- What changing numbers does for a region: the word at its end, with a minus sign before it, is replaced if it is a number that
`f` changes. -/
def NumberRegion (f : Int → Option Int) (t : List UInt8) (q : SelRegion) (scr : Script) : Prop :=
  ∃ a b a', Word.SelectStart t q.stop a ∧ Word.SelectEnd t q.stop b ∧ a' = (if 0 < a ∧ t[a - 1]? = some 45 then a - 1 else a) ∧
    ((∃ n m, parseI128 (piece t a' b) = some n ∧ f n = some m ∧ scr = [(a', b, showInt m)]) ∨
      (parseI128 (piece t a' b)).bind f = none ∧ scr = [])

theorem minus_boundary (hr : r.Balanced) {a : Nat} (h : r.text[a - 1]? = some 45) : CharBoundary r.text (a - 1) := by
  rw [← boundary_iff_spec (Rope.text_utf8 hr)]
  simp only [isCharBoundary, h]
  simp [isCont]

/-- **C43 (in part).** Changing numbers does for every region what `NumberRegion` says, and panics exactly when these replacements are
out of order. Missing: it should never panic (`C43_number_refuted`). -/
theorem C43_number_partial (hr : r.Balanced) (hs : Valid r s) (f : Int → Option Int) :
    ∃ scr : SelRegion → Script, (∀ q ∈ s, NumberRegion f r.text q (scr q)) ∧
      (Ordered 0 (s.flatMap scr) → Makes r.text (changeNumber f r s) (s.flatMap scr)) ∧
      (¬ Ordered 0 (s.flatMap scr) → changeNumber f r s = none) := by
  refine regions_run hr (P := NumberRegion f r.text) ?_
  intro q hq
  have hp := (hs.ends q hq).2
  obtain ⟨c, k1, k2⟩ := new_stands hr (boundary_le hp)
  obtain ⟨c', a, b, e1, -, e2, e3⟩ := C45_select hr hp k2
  obtain ⟨b1, b2, b3, b4⟩ := select_bounds hr hp e2 e3
  have hal := boundary_le b3
  have hns : numberStart r a = some (if 0 < a ∧ r.text[a - 1]? = some 45 then a - 1 else a) := by
    rw [numberStart]
    by_cases h0 : a = 0
    · subst h0; simp
    · rw [if_neg h0, C06_byte_at r (a - 1) hr (by omega)]
      obtain ⟨x, hx⟩ : ∃ x, r.text[a - 1]? = some x := ⟨_, List.getElem?_eq_getElem (by omega)⟩
      have : 0 < a := by omega
      simp only [hx, Option.bind_eq_bind, Option.bind_some, this, true_and, Option.some.injEq, Option.pure_def]
      split <;> rfl
  generalize ha' : (if 0 < a ∧ r.text[a - 1]? = some 45 then a - 1 else a) = a' at hns
  have hab : a' ≤ b ∧ CharBoundary r.text a' := by
    rw [← ha']
    split
    · rename_i h; exact ⟨by omega, minus_boundary hr h.2⟩
    · exact ⟨by omega, b3⟩
  have hlen : r.len = r.text.length := Rope.len_eq hr
  have hbl := boundary_le b4
  have hsl := Rope.sliceToCow_spec hr (lo := a') (hi := b) (range := .range a' b) (by simp [Bounds.intoInterval, Interval.new, hab.1]) hab.2 b4
  have hstep : ∀ bd : Builder, changeNumberStep f r bd q = match (parseI128 (piece r.text a' b)).bind f with
      | some number => replaceIn bd a' b (showInt number)
      | none => some bd := by
    intro bd
    simp only [changeNumberStep, k1, Option.bind_eq_bind, Option.bind_some, e1, hns, hsl]
    rfl
  cases hf : (parseI128 (piece r.text a' b)).bind f with
  | none =>
    refine ⟨[], ⟨a, b, a', e2, e3, ha'.symm, .inr ⟨hf, rfl⟩⟩, by simp, fun bd => ?_⟩
    rw [hstep, hf]; rfl
  | some m =>
    obtain ⟨n, hn, hm⟩ := Option.bind_eq_some_iff.1 hf
    refine ⟨[(a', b, showInt m)], ⟨a, b, a', e2, e3, ha'.symm, .inl ⟨n, m, hn, hm, rfl⟩⟩, ?_, fun bd => ?_⟩
    · intro y hy
      simp only [List.mem_singleton] at hy
      subst hy
      exact ⟨hab.1, hbl⟩
    · rw [hstep, hf]
      exact replaceIn_eq hab.1 _

theorem digits_ok : ∀ n : Nat, n < 10 → String.utf8EncodeChar n.digitChar = [UInt8.ofNat (48 + n)] := by decide

/-- **C43.** Reading a number back gives the number. -/
theorem C43_number_roundtrip (n : Int) (h1 : -(2 ^ 127) ≤ n) (h2 : n < 2 ^ 127) : parseI128 (showInt n) = some n := by
  have key : ∀ m : Nat, ∃ l : List UInt8, (Nat.toDigits 10 m).flatMap String.utf8EncodeChar = l ∧ l ≠ [] ∧ (l.all (fun d => 48 ≤ d && d ≤ 57)) = true ∧
      l.foldl (fun acc d => acc * 10 + (d.toNat - 48)) 0 = m := by
    intro m
    induction m using Nat.strongRecOn with
    | ind m ih =>
      by_cases hm : m < 10
      · refine ⟨_, rfl, ?_⟩
        rw [Nat.toDigits_of_lt_base hm]
        simp only [List.flatMap_cons, List.flatMap_nil, List.append_nil, digits_ok m hm]
        have d : ∀ k : Nat, k < 10 → [UInt8.ofNat (48 + k)] ≠ [] ∧ ([UInt8.ofNat (48 + k)].all (fun d => 48 ≤ d && d ≤ 57)) = true ∧
          [UInt8.ofNat (48 + k)].foldl (fun acc d => acc * 10 + (d.toNat - 48)) 0 = k := by decide
        exact d m hm
      · obtain ⟨l, e1, e2, e3, e4⟩ := ih (m / 10) (by omega)
        refine ⟨_, rfl, ?_⟩
        rw [Nat.toDigits_of_base_le (by omega) (by omega), List.flatMap_append, e1]
        simp only [List.flatMap_cons, List.flatMap_nil, List.append_nil, digits_ok (m % 10) (by omega)]
        have d : ∀ k : Nat, k < 10 → (48 ≤ UInt8.ofNat (48 + k) ∧ UInt8.ofNat (48 + k) ≤ 57) ∧ (UInt8.ofNat (48 + k)).toNat - 48 = k := by decide
        obtain ⟨d1, d2⟩ := d (m % 10) (by omega)
        refine ⟨by simp, by rw [List.all_append, e3]; simpa only [List.all_cons, List.all_nil, Bool.and_true, Bool.true_and, Bool.and_eq_true, decide_eq_true_eq] using d1, ?_⟩
        rw [List.foldl_append, e4]
        simp only [List.foldl_cons, List.foldl_nil, d2]
        omega
  obtain ⟨l, e1, e2, e3, e4⟩ := key n.natAbs
  have hrange : ∀ neg : Bool, (neg = true ↔ n < 0) → (if neg then -((n.natAbs : Nat) : Int) else ((n.natAbs : Nat) : Int)) = n := by
    intro neg hneg
    cases neg with
    | true => have := hneg.1 rfl; simp only [if_true]; omega
    | false => have : ¬ n < 0 := fun h => by simpa using hneg.2 h
               simp only [Bool.false_eq_true, if_false]; omega
  simp only [showInt, e1]
  by_cases hn : n < 0
  · rw [if_pos hn]
    have hr' := hrange true (by simp [hn])
    simp only [if_true] at hr'
    simp only [parseI128, List.cons_append, List.nil_append, signOf, if_true, e3, e4, e2, not_true, or_self, if_false, hr']
    rw [if_pos ⟨h1, h2⟩]
  · rw [if_neg hn, List.nil_append]
    have hr' := hrange false (by simp [hn])
    simp only [Bool.false_eq_true, if_false] at hr'
    have hsign : signOf l = (false, l) := by
      cases l with
      | nil => rfl
      | cons d l =>
        have hd : 48 ≤ d := by simp at e3; exact e3.1.1
        have n45 : d ≠ 45 := by rintro rfl; exact absurd hd (by decide)
        have n43 : d ≠ 43 := by rintro rfl; exact absurd hd (by decide)
        simp [signOf, n45, n43]
    simp only [parseI128, hsign, e3, e4, e2, not_true, or_self, if_false, Bool.false_eq_true, hr']
    rw [if_pos ⟨h1, h2⟩]

/-! ## Duplicating lines -/

theorem nextLine_iff (hr : r.Balanced) {n a : Nat} (ha : (logicalStarts r.text)[n]? = some a) {res : Option Nat}
    (h : IsNext (LineBoundary r.text) r.text.length a res) : res = (logicalStarts r.text)[n + 1]? := by
  have hl := logical_isLines hr
  have hmem : ∀ k, LineBoundary r.text k → k ≤ r.text.length → ∃ j : Nat, (logicalStarts r.text)[j]? = some k := by
    intro k h1 h2
    have : k ∈ logicalStarts r.text := by rw [logicalStarts_eq, mem_visualStarts]; exact ⟨h2, .inr (.inl h1)⟩
    obtain ⟨j, hj, e⟩ := List.getElem_of_mem this
    exact ⟨j, by rw [List.getElem?_eq_getElem hj, e]⟩
  have hself : ∀ {j k : Nat}, (logicalStarts r.text)[j]? = some k → OnLine (logicalStarts r.text) j k k := fun hj =>
    ⟨hj, Nat.le_refl _, fun e he => get_lt hl.sorted (Nat.lt_succ_self _) hj he⟩
  have hin : ∀ k, a < k → LineBoundary r.text k → k ≤ r.text.length → ¬ OnLine (logicalStarts r.text) n a k := by
    intro k h1 h2 h3 h4
    obtain ⟨j, hj⟩ := hmem k h2 h3
    have := (onLine_unique hl.sorted h4 (hself hj)).2
    omega
  cases e : (logicalStarts r.text)[n + 1]? with
  | none =>
    cases res with
    | none => rfl
    | some b => exact absurd ⟨ha, Nat.le_of_lt h.1, by simp [e]⟩ (hin b h.1 h.2.2.1 h.2.1)
  | some x =>
    have hax := get_lt hl.sorted (Nat.lt_succ_self n) ha e
    have hx := List.mem_of_getElem? e
    rw [logicalStarts_eq, mem_visualStarts] at hx
    have hb : LineBoundary r.text x := by
      rcases hx.2 with h0 | h0 | h0
      · omega
      · exact h0
      · exact absurd h0 (no_breaks _)
    have hnext : IsNext (LineBoundary r.text) r.text.length a (some x) := by
      refine ⟨hax, hx.1, hb, fun k k1 k2 k3 => hin k k1 k3 (by omega) ⟨ha, Nat.le_of_lt k1, fun y hy => ?_⟩⟩
      rw [e] at hy
      injection hy with hy
      omega
    cases res with
    | none => exact absurd hb (h x hax hx.1)
    | some b => rw [isNext_unique h hnext]

/-- The region touches lines from one that starts at `a` to one that has a newline and ends at `b`. -/
def LinesOf (t : List UInt8) (q : SelRegion) (a b : Nat) : Prop :=
  ∃ n m c, OnLine (logicalStarts t) n a q.lo ∧ OnLine (logicalStarts t) m c q.hi ∧ (logicalStarts t)[m + 1]? = some b

theorem duplicateStep_spec (hr : r.Balanced) {q : SelRegion} (h1 : CharBoundary r.text q.lo) (h2 : CharBoundary r.text q.hi) (set : List (Nat × Nat)) :
    (∃ a b, LinesOf r.text q a b ∧ duplicateStep r set q = some (setInsert pairLt (a, b) set)) ∨
    (∀ a b, ¬ LinesOf r.text q a b) ∧ duplicateStep r set q = some set := by
  have hl := logical_isLines hr
  obtain ⟨n, a, o1⟩ := hl.onLine q.lo
  obtain ⟨m, c, o2⟩ := hl.onLine q.hi
  have hlast : lastLineStart r q a = some c := by
    rw [lastLineStart]
    split
    · rename_i h
      have h' : q.start = q.stop := by simpa [SelRegion.isCaret] using h
      rw [caret_iff] at h'
      rw [h'] at o1
      rw [(onLine_unique hl.sorted o1 o2).2]
    · simp [hl.lineCol h2 o2, hl.offset m c o2.start]
  have hcl := hl.start_le o2.start
  obtain ⟨cu, pre, l, post, k1, k2, rfl, rfl⟩ := Cursor.new_spec hr hcl
  obtain ⟨c', res, e1, e2, -⟩ := Cursor.next_spec finds_lines k2 (by simp [linesMetric])
  have hres := nextLine_iff hr o2.start e2
  have hstep : duplicateStep cu.root set q = some (match res with
      | some b => setInsert pairLt (a, b) set
      | none => set) := by
    simp only [duplicateStep, hl.lineCol h1 o1, hl.offset n a o1.start, hlast, k1, e1, Option.bind_eq_bind, Option.bind_some]
    cases res <;> rfl
  rw [hstep]
  cases res with
  | some b => exact .inl ⟨a, b, ⟨n, m, _, o1, o2, hres.symm⟩, rfl⟩
  | none =>
    refine .inr ⟨?_, rfl⟩
    rintro a' b ⟨n', m', c', -, p2, p3⟩
    rw [← (onLine_unique hl.sorted o2 p2).1, ← hres] at p3
    simp at p3

theorem pairLt_trans (x y z : Nat × Nat) (h1 : pairLt x y = true) (h2 : pairLt y z = true) : pairLt x z = true := by
  simp only [pairLt, Bool.or_eq_true, Bool.and_eq_true, decide_eq_true_eq, beq_iff_eq] at *; omega

theorem pairLt_total (x y : Nat × Nat) (h1 : x ≠ y) (h2 : pairLt x y = false) : pairLt y x = true := by
  obtain ⟨a, b⟩ := x
  obtain ⟨c, d⟩ := y
  have h1' : ¬ (a = c ∧ b = d) := fun h => h1 (by rw [h.1, h.2])
  have h2' : ¬ (a < c ∨ a = c ∧ b < d) := by
    intro h
    have : pairLt (a, b) (c, d) = true := by simpa [pairLt] using h
    simp [this] at h2
  have : c < a ∨ c = a ∧ d < b := by omega
  simpa [pairLt] using this

theorem linesOf_unique (hr : r.Balanced) {q : SelRegion} {a b a' b' : Nat} (h : LinesOf r.text q a b) (h' : LinesOf r.text q a' b') : a = a' ∧ b = b' := by
  have hl := logical_isLines hr
  obtain ⟨n, m, c, h1, h2, h3⟩ := h
  obtain ⟨n', m', c', g1, g2, g3⟩ := h'
  refine ⟨(onLine_unique hl.sorted h1 g1).2, ?_⟩
  rw [(onLine_unique hl.sorted h2 g2).1, g3] at h3
  injection h3 with h3
  exact h3.symm

theorem duplicate_fold (hr : r.Balanced) : ∀ {s : Selection} {set : List (Nat × Nat)}, set.Pairwise (fun a b => pairLt a b = true) →
    (∀ q ∈ s, CharBoundary r.text q.lo ∧ CharBoundary r.text q.hi) →
    ∃ set', s.foldlM (duplicateStep r) set = some set' ∧ set'.Pairwise (fun a b => pairLt a b = true) ∧
      ∀ x, x ∈ set' ↔ x ∈ set ∨ ∃ q ∈ s, LinesOf r.text q x.1 x.2
  | [], set, h, _ => ⟨set, rfl, h, by simp⟩
  | q :: s, set, h, hb => by
    have hq := hb q (by simp)
    rcases duplicateStep_spec hr hq.1 hq.2 set with ⟨a, b, h1, h2⟩ | ⟨h1, h2⟩
    · obtain ⟨set', g1, g2, g3⟩ := duplicate_fold hr (s := s) (sorted_setInsert pairLt_trans pairLt_total (x := (a, b)) h) (fun q hq => hb q (by simp [hq]))
      refine ⟨set', by rw [List.foldlM_cons, h2]; exact g1, g2, fun x => ?_⟩
      rw [g3, mem_setInsert]
      simp only [List.mem_cons, exists_eq_or_imp]
      constructor
      · rintro ((rfl | h) | h)
        · exact .inr (.inl h1)
        · exact .inl h
        · exact .inr (.inr h)
      · rintro (h | h | h)
        · exact .inl (.inr h)
        · obtain ⟨e1, e2⟩ := linesOf_unique hr h h1
          exact .inl (.inl (by rw [← e1, ← e2]))
        · exact .inr h
    · obtain ⟨set', g1, g2, g3⟩ := duplicate_fold hr (s := s) h (fun q hq => hb q (by simp [hq]))
      refine ⟨set', by rw [List.foldlM_cons, h2]; exact g1, g2, fun x => ?_⟩
      rw [g3]
      simp only [List.mem_cons, exists_eq_or_imp]
      constructor
      · rintro (h | h)
        · exact .inl h
        · exact .inr (.inr h)
      · rintro (h | h | h)
        · exact .inl h
        · exact absurd h (h1 _ _)
        · exact .inr h

/-- **C43 (in part).** Duplicating lines never panics. It inserts a copy of the lines of every region before them, once for each range
of lines, and a line ending more if the range ends with the text. Missing: a last line without newline is not duplicated
(`C43_duplicate_last_refuted`), and the line ending is too much (`C43_duplicate_newline_refuted`). -/
theorem C43_duplicate_partial (hr : r.Balanced) (hs : Valid r s) (config : EditConfig) :
    ∃ set : List (Nat × Nat), set.Pairwise (fun x y => x.1 < y.1 ∨ x.1 = y.1 ∧ x.2 < y.2) ∧
      (∀ x, x ∈ set ↔ ∃ q ∈ s, LinesOf r.text q x.1 x.2) ∧
      Makes r.text (duplicateLine r s config) (set.flatMap (fun x =>
        (x.1, x.1, piece r.text x.1 x.2) :: if x.2 = r.text.length then [(x.1, x.1, config.lineEnding)] else [])) := by
  have hl := logical_isLines hr
  obtain ⟨set, e1, e2, e3⟩ := duplicate_fold hr (set := []) List.Pairwise.nil (fun q hq => hs.lo_hi hq)
  have hmem : ∀ x, x ∈ set ↔ ∃ q ∈ s, LinesOf r.text q x.1 x.2 := fun x => by rw [e3]; simp
  have hsort : set.Pairwise (fun x y => x.1 < y.1 ∨ x.1 = y.1 ∧ x.2 < y.2) := e2.imp (fun h => by simpa [pairLt] using h)
  refine ⟨set, hsort, hmem, ?_⟩
  have hb : ∀ x ∈ set, x.1 ≤ x.2 ∧ CharBoundary r.text x.1 ∧ CharBoundary r.text x.2 := by
    intro x hx
    obtain ⟨q, hq, n, m, c, h1, h2, h3⟩ := (hmem x).1 hx
    have := h2.lt _ h3
    have := h1.le
    have := lo_le q
    exact ⟨by omega, hl.chars _ (List.mem_of_getElem? h1.start), hl.chars _ (List.mem_of_getElem? h3)⟩
  rw [duplicateLine, e1]
  refine buildWith_makes hr ?_ ?_
  · intro x hx b
    obtain ⟨b1, b2, b3⟩ := hb x hx
    have hlen : r.len = r.text.length := Rope.len_eq hr
    have hx2 := boundary_le b3
    obtain ⟨p, k1, k2, -⟩ := Diff.subseq_piece hr b2 b3 b1
    have hsl : r.slice (.range x.1 x.2) = some p := by
      simp only [Rope.slice, Bounds.intoInterval]
      simpa [Interval.new, b1] using k1
    simp only [duplicateInsert, hsl, Option.bind_eq_bind, Option.bind_some, k2, hlen]
    rw [replaceIn_eq (Nat.le_refl _)]
    split
    · rw [show ∀ (u v : Nat × Nat × List UInt8), [u, v] = [u] ++ [v] from fun _ _ => rfl, deltaRun_append]
      congr 1
      funext b
      exact replaceIn_eq (Nat.le_refl _) _
    · cases h : DeltaBuilder.run b [(x.1, x.1, (r.text.take x.2).drop x.1)] <;> simp [piece, h]
  · refine scriptOk_flatMap (lo := Prod.fst) (hi := Prod.fst) (hsort.imp (fun h => by omega)) (fun x hx => ?_)
      (fun x hx => ⟨Nat.zero_le _, boundary_le (hb x hx).2.1⟩) (Nat.zero_le _)
    split
    · exact ⟨Nat.le_refl _, Nat.le_refl _, Nat.le_refl _, Nat.le_refl _, Nat.le_refl _⟩
    · exact ⟨Nat.le_refl _, Nat.le_refl _, Nat.le_refl _⟩

/-! ## Transposing -/

/-- Every region gets the text of the one before it. -/
def rotated (t : List UInt8) : List UInt8 → List SelRegion → Script
  | _, [] => []
  | previous, q :: rest => (q.lo, q.hi, previous) :: rotated t (piece t q.lo q.hi) rest

theorem regionText_spec (hr : r.Balanced) {q : SelRegion} (h1 : CharBoundary r.text q.lo) (h2 : CharBoundary r.text q.hi) :
    regionText r q = some (piece r.text q.lo q.hi) := by
  obtain ⟨p, k1, k2, -⟩ := Diff.subseq_piece hr h1 h2 (lo_le q)
  rw [regionText, interval_lo_hi]
  simp [k1, k2, piece]

theorem rotate_fold {g : Graphemes} (hr : r.Balanced) : ∀ {s : Selection} {b : Builder} {last : Nat} {previous : List UInt8},
    (∀ q ∈ s, q.isCaret = false) → (∀ q ∈ s, CharBoundary r.text q.lo ∧ CharBoundary r.text q.hi) →
    ((s.foldlM (transposeStep g r) ⟨b, last, some previous⟩).map Transpose.builder) = b.run (rotated r.text previous s)
  | [], b, last, previous, _, _ => rfl
  | q :: s, b, last, previous, hc, hb => by
    have hq := hb q (by simp)
    rw [rotated, show ∀ (u : Nat × Nat × List UInt8) v, u :: v = [u] ++ v from fun _ _ => rfl, deltaRun_append, deltaRun_one, List.foldlM_cons]
    simp only [transposeStep, hc q (by simp), Bool.false_eq_true, if_false, regionText_spec hr hq.1 hq.2, Option.bind_eq_bind, Option.bind_some]
    cases b.replace q.lo q.hi previous with
    | none => rfl
    | some b' =>
      simp only [Option.bind_some, Option.pure_def]
      exact rotate_fold hr (fun q hq => hc q (by simp [hq])) (fun q hq => hb q (by simp [hq]))

theorem rotated_ok {t : List UInt8} : ∀ {s : Selection} {previous : List UInt8} {a n : Nat}, s.Pairwise (fun x y => x.hi ≤ y.lo) →
    (∀ q ∈ s, a ≤ q.lo ∧ q.hi ≤ n) → a ≤ n → ScriptOk n a (rotated t previous s)
  | [], _, _, _, _, _, h => h
  | q :: s, _, a, n, hp, h, _ => by
    rw [List.pairwise_cons] at hp
    exact ⟨(h q (by simp)).1, lo_le q, rotated_ok hp.2 (fun x hx => ⟨hp.1 x hx, (h x (by simp [hx])).2⟩) (h q (by simp)).2⟩

/-- **C43.** Without carets, transposing gives every region the text of the region before it, and the first the text of the last. -/
theorem C43_transpose_regions {g : Graphemes} (hr : r.Balanced) {q : SelRegion} (hs : Valid r (s ++ [q])) (hc : ∀ x ∈ s ++ [q], x.isCaret = false) :
    Makes r.text (transpose g r (s ++ [q])) (rotated r.text (piece r.text q.lo q.hi) (s ++ [q])) := by
  have hq := hs.lo_hi (q := q) (by simp)
  have hfirst : transposeFirst r (s ++ [q]) = some (some (piece r.text q.lo q.hi)) := by
    have : lastSelectionRegion (s ++ [q]) = some q := by
      simp [lastSelectionRegion, hc q (by simp)]
    rw [transposeFirst, this]
    simp [regionText_spec hr hq.1 hq.2]
  have hok : ScriptOk r.text.length 0 (rotated r.text (piece r.text q.lo q.hi) (s ++ [q])) :=
    rotated_ok (hs.inv.imp (fun h => h.1)) (fun x hx => ⟨Nat.zero_le _, hs.hi_le hx⟩) (Nat.zero_le _)
  obtain ⟨b, h1, h2, h3, h4, -⟩ := C13_builder r.text _ hok
  refine ⟨b.build, ?_, h2, h3, h4⟩
  have := rotate_fold (g := g) hr (b := DeltaBuilder.new r.text.length) (last := 0) (previous := piece r.text q.lo q.hi) hc (fun x hx => hs.lo_hi hx)
  rw [h1] at this
  simp only [transpose, hfirst, Option.bind_eq_bind, Option.bind_some, Rope.len_eq hr]
  obtain ⟨st, hst, hb⟩ := Option.map_eq_some_iff.1 this
  rw [hst, ← hb]
  rfl

/-- The places around a caret at `o` that `transpose` starts from. -/
structure Around (g : Graphemes) (t : List UInt8) (o p e : Nat) : Prop where
  first : o = 0 → p = 0
  before : 0 < o → IsPrev (fun k => g.boundary t k = true) o (some p)
  last : o = t.length → e = o
  after : o < t.length → IsNext (fun k => g.boundary t k = true) t.length o (some e)

theorem around_exists {g : Graphemes} (hr : r.Balanced) (hg : g.Ok) {o : Nat} (ho : CharBoundary r.text o) :
    ∃ p e, Around g r.text o p e ∧ ((g.prevOffset r o).map (fun x => x.getD 0) = some p) ∧ (g.nextOffset r o).map (fun x => x.getD o) = some e ∧
      p ≤ o ∧ o ≤ e ∧ CharBoundary r.text p ∧ CharBoundary r.text e := by
  have hu := Rope.text_utf8 hr
  have hol := boundary_le ho
  have h1 : ∃ p, (o = 0 → p = 0) ∧ (0 < o → IsPrev (fun k => g.boundary r.text k = true) o (some p)) ∧
      (g.prevOffset r o).map (fun x => x.getD 0) = some p ∧ p ≤ o ∧ CharBoundary r.text p := by
    rcases Nat.eq_zero_or_pos o with h0 | h0
    · subst h0
      exact ⟨0, fun _ => rfl, fun h => absurd h (by omega), by rw [Graphemes.prev_zero hr]; rfl, Nat.le_refl _, ho⟩
    · obtain ⟨p, e1, e2⟩ := Graphemes.prev_pos hg hr hol h0
      exact ⟨p, fun h => absurd h (by omega), fun _ => e2, by rw [e1]; rfl, Nat.le_of_lt e2.1, hg.char _ _ hu e2.2.1⟩
  have h2 : ∃ e, (o = r.text.length → e = o) ∧ (o < r.text.length → IsNext (fun k => g.boundary r.text k = true) r.text.length o (some e)) ∧
      (g.nextOffset r o).map (fun x => x.getD o) = some e ∧ o ≤ e ∧ CharBoundary r.text e := by
    rcases Nat.lt_or_ge o r.text.length with h0 | h0
    · obtain ⟨e, e1, e2⟩ := Graphemes.next_lt hg hr h0
      exact ⟨e, fun h => absurd h (by omega), fun _ => e2, by rw [e1]; rfl, Nat.le_of_lt e2.1, hg.char _ _ hu e2.2.2.1⟩
    · have : o = r.text.length := by omega
      subst this
      exact ⟨_, fun _ => rfl, fun h => absurd h (by omega), by rw [Graphemes.next_end hr]; rfl, Nat.le_refl _, ho⟩
  obtain ⟨p, p1, p2, p3, p4, p5⟩ := h1
  obtain ⟨e, e1, e2, e3, e4, e5⟩ := h2
  exact ⟨p, e, ⟨p1, p2, e1, e2⟩, p3, e3, p4, e4, p5, e5⟩

/-- The two pieces on the sides of `b` change places. -/
def swap (t : List UInt8) (a b c : Nat) : Script := [(a, c, piece t b c ++ piece t a b)]

theorem transposeSwap_makes (hr : r.Balanced) {a b c : Nat} (hab : a ≤ b) (hbc : b ≤ c) (ha : CharBoundary r.text a) (hb : CharBoundary r.text b) (hc : CharBoundary r.text c) (last : Nat)
    (previous : Option (List UInt8)) :
    Makes r.text ((transposeSwap r ⟨DeltaBuilder.new r.len, last, previous⟩ a b c).map (fun st => st.builder.build)) (swap r.text a b c) := by
  have hlen : r.len = r.text.length := Rope.len_eq hr
  have hcl := boundary_le hc
  have s1 := Rope.sliceToCow_spec hr (lo := a) (hi := b) (range := .range a b) (by simp [Bounds.intoInterval]) ha hb
  have s2 := Rope.sliceToCow_spec hr (lo := b) (hi := c) (range := .range b c) (by simp [Bounds.intoInterval]) hb hc
  obtain ⟨d, h1, h2, h3, h4, -⟩ := C13_builder r.text (swap r.text a b c) ⟨Nat.zero_le _, by omega, hcl⟩
  refine ⟨d.build, ?_, h2, h3, h4⟩
  rw [swap, deltaRun_one] at h1
  simp only [piece] at h1
  simp only [transposeSwap, Interval.new, show a ≤ c by omega, if_true, Option.bind_eq_bind, Option.bind_some, s1, s2, hlen, h1]
  rfl

theorem transposeCaret_one {g : Graphemes} {o p e : Nat} (h1 : (g.prevOffset r o).map (fun x => x.getD 0) = some p)
    (h2 : (g.nextOffset r o).map (fun x => x.getD o) = some e) {q : SelRegion} (hq : q.start = o) (hq' : q.stop = o) :
    transpose g r [q] = (((transposePlaces g r p o e).bind (fun x => transposeSwap r ⟨DeltaBuilder.new r.len, 0, none⟩ x.1 x.2.1 x.2.2)).map
      (fun st => st.builder.build)) := by
  obtain ⟨x, hx, hx'⟩ := Option.map_eq_some_iff.1 h1
  obtain ⟨y, hy, hy'⟩ := Option.map_eq_some_iff.1 h2
  have hc : q.isCaret = true := by simp [SelRegion.isCaret, hq, hq']
  simp only [transpose, transposeFirst, lastSelectionRegion, List.reverse_cons, List.reverse_nil, List.nil_append, List.find?_cons, hc, Bool.not_true,
    List.find?_nil, Option.bind_eq_bind, Option.bind_some, List.foldlM_cons, List.foldlM_nil, transposeStep, if_true, transposeCaret, hq', hx, hx', hy, hy',
    Nat.zero_le]
  cases transposePlaces g r p o e with
  | none => rfl
  | some z =>
    obtain ⟨a, b, c⟩ := z
    simp only [Option.bind_some]
    cases transposeSwap r ⟨DeltaBuilder.new r.len, 0, none⟩ a b c <;> rfl

/-- **C43 (in part).** Transposing at a single caret swaps the clusters before and after it. Before a newline that is not the last
character it swaps the two clusters before the caret instead, if the one next to the caret is a single byte. Missing: that cluster may
be longer (`C43_transpose_newline_refuted`), and the swap with a last newline (`C43_transpose_last_refuted`). -/
theorem C43_transpose_caret_partial {g : Graphemes} (hr : r.Balanced) (hg : g.Ok) {o : Nat} (ho : CharBoundary r.text o) {q : SelRegion} (hq : q.start = o)
    (hq' : q.stop = o) : ∃ p e, Around g r.text o p e ∧ (¬ LineBoundary r.text e ∨ e = r.text.length → Makes r.text (transpose g r [q]) (swap r.text p o e)) ∧
      (LineBoundary r.text e → e ≠ r.text.length → ∃ p', (p = 0 → p' = 0) ∧ (0 < p → IsPrev (fun k => g.boundary r.text k = true) p (some p')) ∧
        (CharBoundary r.text (p + 1) → Makes r.text (transpose g r [q]) (swap r.text p' p (p + 1)))) := by
  have hl := logical_isLines hr
  obtain ⟨p, e, h, h1, h2, h3, h4, h5, h6⟩ := around_exists hr hg ho
  have htr := transposeCaret_one h1 h2 hq hq'
  obtain ⟨n, a, on⟩ := hl.onLine e
  have hlen : r.len = r.text.length := Rope.len_eq hr
  have hael := boundary_le h6
  have hiff : e = a ↔ e = 0 ∨ LineBoundary r.text e := by
    have hm : a = e ↔ e ∈ logicalStarts r.text := by
      constructor
      · rintro rfl; exact List.mem_of_getElem? on.start
      · intro h
        obtain ⟨j, hj, e'⟩ := List.getElem_of_mem h
        have hj' : (logicalStarts r.text)[j]? = some e := by rw [List.getElem?_eq_getElem hj, e']
        exact (onLine_unique hl.sorted on ⟨hj', Nat.le_refl _, fun x hx => get_lt hl.sorted (Nat.lt_succ_self _) hj' hx⟩).2
    rw [eq_comm, hm, logicalStarts_eq, mem_visualStarts]
    constructor
    · rintro ⟨-, h | h | h⟩
      · exact .inl h
      · exact .inr h
      · exact absurd h (no_breaks _)
    · rintro (h | h)
      · exact ⟨hael, .inl h⟩
      · exact ⟨hael, .inr (.inl h)⟩
  have hplaces : transposePlaces g r p o e = if (e = o ∨ e = a) ∧ e ≠ r.text.length then (g.prevOffset r p).map (fun x => (x.getD 0, p, p + 1))
      else some (p, o, e) := by
    simp only [transposePlaces, hl.lineOf h6 on, hl.offset n a on.start, Option.bind_eq_bind, Option.bind_some, hlen]
    split
    · cases g.prevOffset r p <;> rfl
    · rfl
  refine ⟨p, e, h, ?_, ?_⟩
  · intro hcase
    have hneg : ¬ ((e = o ∨ e = a) ∧ e ≠ r.text.length) := by
      rintro ⟨c1, c2⟩
      rcases hcase with hcase | hcase
      · rcases Nat.lt_or_ge o r.text.length with hlt | hge
        · have := (h.after hlt).1
          rcases c1 with c1 | c1
          · omega
          · rcases hiff.1 c1 with c | c
            · omega
            · exact hcase c
        · have : o = r.text.length := by have := boundary_le ho; omega
          have := h.last this
          omega
      · exact c2 hcase
    rw [htr, hplaces, if_neg hneg]
    exact transposeSwap_makes hr h3 h4 h5 ho h6 0 none
  · intro hlb hne
    have hpos : (e = o ∨ e = a) ∧ e ≠ r.text.length := ⟨.inr (hiff.2 (.inr hlb)), hne⟩
    obtain ⟨p', _, h', k1, -, k3, -, k5, -⟩ := around_exists hr hg h5
    have hpl : transposePlaces g r p o e = some (p', p, p + 1) := by
      rw [hplaces, if_pos hpos]
      obtain ⟨x, hx, hx'⟩ := Option.map_eq_some_iff.1 k1
      rw [hx, Option.map_some, hx']
    refine ⟨p', h'.first, h'.before, fun hb => ?_⟩
    rw [htr, hpl]
    exact transposeSwap_makes hr k3 (Nat.le_succ _) k5 h5 hb 0 none

end

/-! ## One region -/

theorem ordered_single {a b : Nat} {z : List UInt8} : Ordered 0 [(a, b, z)] := ⟨Nat.zero_le _, trivial⟩

/-- **C43.** With one cursor backspace never panics. -/
theorem C43_backspace_single {r : Rope} {q : SelRegion} (hr : r.Balanced) (hs : Valid r [q]) (config : EditConfig) (htab : 0 < config.tabSize) :
    ∃ scr, BackspaceRegion r config q scr ∧ Makes r.text (deleteBackward r [q] config) scr := by
  obtain ⟨scr, h1, h2, -⟩ := C43_backspace_partial hr hs config htab
  have hq := h1 q (by simp)
  refine ⟨scr q, hq, ?_⟩
  have h := h2 ?_
  · simpa using h
  · rw [List.flatMap_cons, List.flatMap_nil, List.append_nil]
    obtain ⟨a, -, -, -, e⟩ := hq
    rw [e]
    split
    · exact ordered_single
    · trivial

/-- **C43.** With one cursor changing a number never panics. -/
theorem C43_number_single {r : Rope} {q : SelRegion} (hr : r.Balanced) (hs : Valid r [q]) (f : Int → Option Int) :
    ∃ scr, NumberRegion f r.text q scr ∧ Makes r.text (changeNumber f r [q]) scr := by
  obtain ⟨scr, h1, h2, -⟩ := C43_number_partial hr hs f
  have hq := h1 q (by simp)
  refine ⟨scr q, hq, ?_⟩
  have h := h2 ?_
  · simpa using h
  · rw [List.flatMap_cons, List.flatMap_nil, List.append_nil]
    obtain ⟨a, b, a', -, -, -, ⟨n, m, -, -, e⟩ | ⟨-, e⟩⟩ := hq
    · rw [e]; exact ordered_single
    · rw [e]; trivial

/-- **C43.** With one region the tab key never panics. -/
theorem C43_tab_single {r : Rope} {q : SelRegion} {g : Graphemes} (hr : r.Balanced) (hg : g.Ok) (hs : Valid r [q]) (config : EditConfig) (hpos : 0 < config.tabSize)
    (htab : config.translateTabsToSpaces = true → config.tabSize ≤ 32) :
    ∃ scr, TabRegion r.text config q scr ∧ Makes r.text (insertTab g r [q] config) scr := by
  obtain ⟨scr, h1, h2⟩ := C43_tab hr hg hs config hpos htab (by simp)
  exact ⟨scr q, h1 q (by simp), by simpa using h2⟩

/-! ## Defects and examples -/

/-- The settings of the examples: four spaces, tab stops, Unix line ends. -/
def exampleEdit : EditConfig := { tabSize := 4, translateTabsToSpaces := true, useTabStops := true, lineEnding := [newline] }

/-- The bytes of a string. -/
def bytesOf (s : String) : List UInt8 := s.toList.flatMap String.utf8EncodeChar

/-- The text after the edit. -/
def resultOf (s : String) (d : Option (Delta UInt8)) : Option (List UInt8) := d.bind (fun d => d.apply (bytesOf s))

/-- Upper case for ASCII. -/
def upperAscii (l : List UInt8) : List UInt8 := l.map (fun c => if 97 ≤ c && c ≤ 122 then c - 32 else c)

/-- Lower case for ASCII. -/
def lowerAscii (l : List UInt8) : List UInt8 := l.map (fun c => if 65 ≤ c && c ≤ 90 then c + 32 else c)

/-- A valid selection, decided. -/
theorem small_valid {t : String} {s : Selection} (h1 : s.Inv) (h2 : s.all (fun q => isCharBoundary (bytesOf t) q.start && isCharBoundary (bytesOf t) q.stop) = true) :
    Valid (smallRope t) s where
  inv := h1
  ends q hq := by
    have := List.all_eq_true.1 h2 q hq
    simp only [Bool.and_eq_true] at this
    exact ⟨small_boundary this.1, small_boundary this.2⟩

/-- **C43 (refuted).** Backspace at two carets in the same four spaces panics: both go back to the same tab stop. -/
theorem C43_backspace_refuted : ∃ s, Valid (smallRope "    ") s ∧ deleteBackward (smallRope "    ") s exampleEdit = none :=
  ⟨[.caret 2, .caret 4], small_valid (by unfold Selection.Inv Selection.Before; decide) (by decide +kernel), by decide +kernel⟩

/-- **C43 (refuted).** So it does at two carets around the second character of a Windows line end. -/
theorem C43_backspace_crlf_refuted : ∃ s, Valid (smallRope "\r\n") s ∧ deleteBackward (smallRope "\r\n") s exampleEdit = none :=
  ⟨[.caret 1, .caret 2], small_valid (by unfold Selection.Inv Selection.Before; decide) (by decide +kernel), by decide +kernel⟩

/-- **C43 (refuted).** The tab key panics at a caret on a line from which a later region goes on to the next. -/
theorem C43_tab_refuted : ∃ s, Valid (smallRope "ab\ncd") s ∧ insertTab plainGraphemes (smallRope "ab\ncd") s exampleEdit = none :=
  ⟨[.caret 1, .new 2 4], small_valid (by unfold Selection.Inv Selection.Before; decide) (by decide +kernel), by decide +kernel⟩

/-- **C43 (refuted).** Two carets at one number panic. -/
theorem C43_number_refuted : ∃ s, Valid (smallRope "12") s ∧ changeNumber (fun n => some (n + 1)) (smallRope "12") s = none :=
  ⟨[.caret 0, .caret 2], small_valid (by unfold Selection.Inv Selection.Before; decide) (by decide +kernel), by decide +kernel⟩

/-- **C43 (refuted).** Duplicating a last line without newline does nothing. -/
theorem C43_duplicate_last_refuted : Valid (smallRope "a\nb") [.caret 2] ∧
    resultOf "a\nb" (duplicateLine (smallRope "a\nb") [.caret 2] exampleEdit) = some (bytesOf "a\nb") :=
  ⟨small_valid (by unfold Selection.Inv Selection.Before; decide) (by decide +kernel), by decide +kernel⟩

/-- **C43 (refuted).** Duplicating a last line with newline adds an empty line. -/
theorem C43_duplicate_newline_refuted : Valid (smallRope "a\n") [.caret 0] ∧
    resultOf "a\n" (duplicateLine (smallRope "a\n") [.caret 0] exampleEdit) = some (bytesOf "a\n\na\n") :=
  ⟨small_valid (by unfold Selection.Inv Selection.Before; decide) (by decide +kernel), by decide +kernel⟩

/-- **C43 (refuted).** Transposing panics at the end of a line whose last character is more than one byte. -/
theorem C43_transpose_newline_refuted : Valid (smallRope "aé\nb") [.caret 3] ∧ transpose plainGraphemes (smallRope "aé\nb") [.caret 3] = none :=
  ⟨small_valid (by unfold Selection.Inv Selection.Before; decide) (by decide +kernel), by decide +kernel⟩

/-- **C43 (refuted).** Before a newline that ends the text, transposing swaps with the newline; before any other newline it swaps the two
characters before the caret. -/
theorem C43_transpose_last_refuted : resultOf "abc\n" (transpose plainGraphemes (smallRope "abc\n") [.caret 3]) = some (bytesOf "ab\nc") ∧
    resultOf "abc\nd" (transpose plainGraphemes (smallRope "abc\nd") [.caret 3]) = some (bytesOf "acb\nd") :=
  ⟨by decide +kernel, by decide +kernel⟩

/-- **C43 (refuted).** Transposing at two carets panics if the second is at the end of a line and goes back before the first. -/
theorem C43_transpose_carets_refuted : Valid (smallRope "abc\nd") [.caret 1, .caret 3] ∧
    transpose plainGraphemes (smallRope "abc\nd") [.caret 1, .caret 3] = none :=
  ⟨small_valid (by unfold Selection.Inv Selection.Before; decide) (by decide +kernel), by decide +kernel⟩

/-- **C43 (refuted).** So it does with a region and a caret. -/
theorem C43_transpose_mixed_refuted : Valid (smallRope "abc\nd") [.new 0 2, .caret 3] ∧
    transpose plainGraphemes (smallRope "abc\nd") [.new 0 2, .caret 3] = none :=
  ⟨small_valid (by unfold Selection.Inv Selection.Before; decide) (by decide +kernel), by decide +kernel⟩

/-- **C43 (refuted).** Capitalizing at the end of a word also capitalizes the next. -/
theorem C43_capitalize_next_refuted : Valid (smallRope "foo bar") [.caret 3] ∧
    ((capitalizeText upperAscii lowerAscii (smallRope "foo bar") [.caret 3]).bind (fun x => x.1.apply (bytesOf "foo bar"))) = some (bytesOf "Foo Bar") :=
  ⟨small_valid (by unfold Selection.Inv Selection.Before; decide) (by decide +kernel), by decide +kernel⟩

/-- **C43 (refuted).** Capitalizing a region also capitalizes the word after it. -/
theorem C43_capitalize_beyond_refuted : Valid (smallRope "foo bar baz") [.new 0 7] ∧
    ((capitalizeText upperAscii lowerAscii (smallRope "foo bar baz") [.new 0 7]).bind (fun x => x.1.apply (bytesOf "foo bar baz"))) =
      some (bytesOf "Foo Bar Baz") :=
  ⟨small_valid (by unfold Selection.Inv Selection.Before; decide) (by decide +kernel), by decide +kernel⟩

/-- **C43 (refuted).** Capitalizing a word before a space that ends the text panics. -/
theorem C43_capitalize_end_refuted : Valid (smallRope "foo ") [.new 0 3] ∧
    ((capitalizeText upperAscii lowerAscii (smallRope "foo ") [.new 0 3]).isNone) = true :=
  ⟨small_valid (by unfold Selection.Inv Selection.Before; decide) (by decide +kernel), by decide +kernel⟩

/-- **C43 (refuted).** Capitalizing two regions with adjacent words panics. -/
theorem C43_capitalize_regions_refuted : Valid (smallRope "foo bar") [.new 0 1, .new 2 3] ∧
    ((capitalizeText upperAscii lowerAscii (smallRope "foo bar") [.new 0 1, .new 2 3]).isNone) = true :=
  ⟨small_valid (by unfold Selection.Inv Selection.Before; decide) (by decide +kernel), by decide +kernel⟩

/-- **C43 (refuted).** Capitalizing a word whose first character is more than one byte panics. -/
theorem C43_capitalize_char_refuted : Valid (smallRope "éa") [.caret 0] ∧
    ((capitalizeText upperAscii lowerAscii (smallRope "éa") [.caret 0]).isNone) = true :=
  ⟨small_valid (by unfold Selection.Inv Selection.Before; decide) (by decide +kernel), by decide +kernel⟩

/-- **C43 (refuted).** For a region selected backwards on one line, the spaces of the tab key do not end at a tab stop: they are counted
from the wrong end. -/
theorem C43_tab_backwards_refuted : Valid (smallRope "abcdefgh") [.new 6 1] ∧
    resultOf "abcdefgh" (insertTab plainGraphemes (smallRope "abcdefgh") [.new 6 1] exampleEdit) = some (bytesOf "a  gh") :=
  ⟨small_valid (by unfold Selection.Inv Selection.Before; decide) (by decide +kernel), by decide +kernel⟩

example : Valid (smallRope "aé\nb") [.caret 1, .new 4 5] := small_valid (by unfold Selection.Inv Selection.Before; decide) (by decide +kernel)
example : resultOf "aé\nb" (insert (smallRope "aé\nb") [.caret 1, .new 4 5] (bytesOf "x")) = some (bytesOf "axé\nx") := by decide +kernel
example : resultOf "aé\nb" (surround (smallRope "aé\nb") [.new 0 1, .new 4 5] (bytesOf "(") (bytesOf ")")) = some (bytesOf "(a)é\n(b)") := by decide +kernel
example : resultOf "aé\nb" (transformText upperAscii (smallRope "aé\nb") [.new 0 1, .new 4 5]) = some (bytesOf "Aé\nB") := by decide +kernel
example : resultOf "aé\nb" (deleteSelRegions (smallRope "aé\nb") [.new 1 3, .caret 4]) = some (bytesOf "a\nb") := by decide +kernel
example : extractSelRegions (smallRope "aé\nb") [.new 1 3, .caret 3, .new 4 5] = some (some (bytesOf "é\nb")) := by decide +kernel
example : resultOf "aé\nb" (modifyIndent plainGraphemes (smallRope "aé\nb") [.new 1 5] exampleEdit true) = some (bytesOf "    aé\n    b") := by decide +kernel
example : resultOf "  a\n     b" (modifyIndent plainGraphemes (smallRope "  a\n     b") [.new 1 5] exampleEdit false) = some (bytesOf "a\n b") := by decide +kernel
example : resultOf "ab\n    c" (deleteBackward (smallRope "ab\n    c") [.caret 1, .caret 7] exampleEdit) = some (bytesOf "b\nc") := by decide +kernel
example : resultOf "ab\ncd" (insertTab plainGraphemes (smallRope "ab\ncd") [.caret 1, .caret 5] exampleEdit) = some (bytesOf "a   b\ncd  ") := by decide +kernel
example : resultOf "ab\ncd" (insertTab plainGraphemes (smallRope "ab\ncd") [.new 1 4] exampleEdit) = some (bytesOf "    ab\n    cd") := by decide +kernel
example : resultOf "x -12" (changeNumber (fun n => some (n + 13)) (smallRope "x -12") [.caret 4]) = some (bytesOf "x 1") := by decide +kernel
example : resultOf "a\nb\nc" (duplicateLine (smallRope "a\nb\nc") [.new 0 3] exampleEdit) = some (bytesOf "a\nb\na\nb\nc") := by decide +kernel
example : resultOf "abcd" (transpose plainGraphemes (smallRope "abcd") [.new 0 1, .new 1 2, .new 3 4]) = some (bytesOf "dacb") := by decide +kernel
example : resultOf "aéb" (transpose plainGraphemes (smallRope "aéb") [.caret 1]) = some (bytesOf "éab") := by decide +kernel
example : (smallRope "aé\nb").Balanced := small_balanced (by decide +kernel)

end Xi
