import Verif.Core.WrapEdit

/-!
# Incremental word wrapping (core-lib/src/linewrap.rs): C54, C55
-/

namespace Xi

open LinesState

/-- The states that changes of the width, background work and edits lead to.
`InOrder`: see `C54_order_refuted`. -/
inductive WrapRun : WrapRule → Rope → LinesState → Prop
  | start {rule : WrapRule} {r : Rope} {L : LinesState} {wraps differs : Bool} (hr : rule.Ok) (hb : r.Balanced) (hL : L.breaks.len = 0) :
      WrapRun rule r (L.setWrapWidth r wraps differs)
  | width {rule rule' : WrapRule} {r : Rope} {L : LinesState} {wraps differs : Bool} (h : WrapRun rule r L) (hr : rule'.Ok)
      (hd : L.wraps ≠ wraps → differs = true) : WrapRun rule' r (L.setWrapWidth r wraps differs)
  | chunk {rule : WrapRule} {r : Rope} {L L' : LinesState} {vis vis' : Nat} {i : Option InvalLines} (h : WrapRun rule r L) (hv : vis ≤ vis')
      (e : L.rewrapChunk rule r r.text vis vis' = some (L', i)) : WrapRun rule r L'
  | edit {rule : WrapRule} {r r' : Rope} {L L' : LinesState} {iv : Interval} {ins : List UInt8} {vis vis' : Nat} {i : Option InvalLines}
      (h : WrapRun rule r L) (hb : r'.Balanced) (ht : r'.text = r.text.take iv.start ++ ins ++ r.text.drop iv.stop)
      (hiv : iv.start ≤ iv.stop) (c1 : CharBoundary r.text iv.start) (c2 : CharBoundary r.text iv.stop) (hv : vis ≤ vis')
      (ho : L.wraps = true → InOrder L.work) (e : L.afterEdit rule r' r r'.text iv ins.length vis vis' = some (L', i)) : WrapRun rule r' L'

theorem WrapRun.ok {rule : WrapRule} {r : Rope} {L : LinesState} (h : WrapRun rule r L) : rule.Ok := by
  induction h with
  | start hr _ _ => exact hr
  | width _ hr _ => exact hr
  | chunk _ _ _ ih => exact ih
  | edit _ _ _ _ _ _ _ _ _ ih => exact ih

theorem newNoBreak_text (n : Nat) : (Breaks.newNoBreak n).text = List.replicate n false := by
  rw [Breaks.newNoBreak, Node.text_fromLeaf]
  exact flags_blank n

theorem newNoBreak_agree {r : Rope} (hb : r.Balanced) : Agree r (Breaks.newNoBreak r.text.length) :=
  ⟨hb, ⟨0, Node.wf_fromLeaf (BreaksLeaf.blank_ok _)⟩, by rw [newNoBreak_text]; simp, fun k _ h => breakAt_blank _ _ (newNoBreak_text _ ▸ h),
    fun k h => absurd (newNoBreak_text _ ▸ h) (breakAt_blank _ _)⟩

theorem setWidth_inv {rule : WrapRule} {r : Rope} {L : LinesState} {wraps differs : Bool} (hb : r.Balanced)
    (h : L.breaks.len = 0 ∨ differs = true ∨ (Agree r L.breaks ∧ (wraps = false → ∀ k, ¬ BreakAt L.breaks.text k))) :
    Inv rule r (L.setWrapWidth r wraps differs) := by
  have hlen := Rope.len_eq hb
  have hwork : ∀ p, Pending (WrapTasks.add [] ⟨0, r.text.length⟩) p ↔ p < r.text.length := by
    intro p; rw [C48_add_task]; simp [pending_nil, Interval.Has]
  unfold setWrapWidth
  rw [hlen]
  have hbr : Agree r (if L.breaks.len = 0 ∨ differs = true then Breaks.newNoBreak r.text.length else L.breaks) ∧
      (wraps = false → ∀ k, ¬ BreakAt (if L.breaks.len = 0 ∨ differs = true then Breaks.newNoBreak r.text.length else L.breaks).text k) := by
    by_cases hc : L.breaks.len = 0 ∨ differs = true
    · rw [if_pos hc]
      refine ⟨newNoBreak_agree hb, fun _ k hk => ?_⟩
      rw [newNoBreak_text] at hk
      exact breakAt_blank _ _ hk
    · rw [if_neg hc]
      rcases h with h | h | h
      · exact absurd (.inl h) hc
      · exact absurd (.inr h) hc
      · exact h
  refine ⟨hbr.1, fun _ t ht => ?_, fun _ k h0 hk => ?_, hbr.2⟩
  · by_cases hz : r.text.length = 0
    · simp [WrapTasks.add, Interval.isEmpty, hz] at ht
    · simp [WrapTasks.add, Interval.isEmpty] at ht
      rw [ht.2]
      exact ⟨by show 0 < r.text.length; omega, Nat.le_refl _, .inl rfl, .inr (.inl rfl)⟩
  · rw [hwork] at hk
    constructor
    · intro hbk
      have := (List.getElem?_eq_some_iff.1 hbk.2).1
      have := hbr.1.len
      simp only at *
      omega
    · intro hs
      have := hs.pos
      omega

theorem chunk_spec {rule : WrapRule} (hr : rule.Ok) {r : Rope} {L : LinesState} (hi : L.Inv rule r) {vis vis' : Nat} (hv : vis ≤ vis') :
    L.isConverged = true ∧ L.rewrapChunk rule r r.text vis vis' = some (L, none) ∨
    L.isConverged = false ∧ ∃ L' s a e, L.rewrapChunk rule r r.text vis vis' = some (L', some ⟨s.startLine, s.invalCount, s.newCount⟩) ∧
      Wrapped rule r L L' s a e ∧ L'.Inv rule r := by
  unfold rewrapChunk
  cases hc : L.isConverged with
  | true => left; simp
  | false =>
    right
    simp [isConverged] at hc
    obtain ⟨L', s, a, e, e1, e2⟩ := doWrapTask_spec hr hi hc.1 hc.2 hv
    exact ⟨rfl, L', s, a, e, by simp [e1], e2, e2.inv hr hi hc.1⟩

theorem edit_inv {rule : WrapRule} (hr : rule.Ok) {r r' : Rope} {L : LinesState} {iv : Interval} {N vis vis' : Nat} (hi : L.Inv rule r) (hb : r'.Balanced)
    (he : Edited r.text r'.text iv.start iv.stop N) (c1 : CharBoundary r.text iv.start) (c2 : CharBoundary r.text iv.stop) (hv : vis ≤ vis')
    (ho : L.wraps = true → InOrder L.work) : ∃ L' i, L.afterEdit rule r' r r'.text iv N vis vis' = some (L', i) ∧ L'.Inv rule r' := by
  obtain ⟨p, q, oe, b, w, h⟩ := editInfo hi.agree hb he c1 c2
  rw [h.result hi.agree he]
  unfold editResult
  cases hw : L.wraps with
  | false =>
    refine ⟨_, _, if_pos rfl, ⟨h.agree hi.agree hb he, fun hf => by simp at hf, fun hf => by simp at hf, fun _ k hk => ?_⟩⟩
    have hle := he.le
    have hl := hi.agree.len
    change BreakAt b.text k at hk
    rw [h.text, breakAt_blanked he.st (by omega)] at hk
    rcases hk with ⟨-, hk⟩ | ⟨-, hk⟩
    · exact hi.plain hw _ hk
    · exact hi.plain hw _ hk
  | true =>
    have hi2 := h.inv hi hb he hw (ho hw)
    simp only [hw] at hi2
    simp only [Bool.true_eq_false, if_false]
    split
    · rename_i hne
      obtain ⟨L', s, a, e, e1, e2⟩ := doWrapTask_spec hr hi2 rfl (by simpa using hne) hv
      rw [e1]
      simp only [Option.bind_some]
      have := e2.inv hr hi2 rfl
      split
      · exact ⟨_, _, rfl, this⟩
      · exact ⟨_, _, rfl, this⟩
    · exact ⟨_, _, rfl, hi2⟩

theorem WrapRun.inv {rule : WrapRule} {r : Rope} {L : LinesState} (h : WrapRun rule r L) : L.Inv rule r := by
  induction h with
  | start hr hb hL => exact setWidth_inv hb (.inl hL)
  | @width rule rule' r L wraps differs h hr hd ih =>
    refine setWidth_inv ih.agree.text ?_
    by_cases hw : L.wraps = wraps
    · exact .inr (.inr ⟨ih.agree, fun hf => ih.plain (by rw [hw]; exact hf)⟩)
    · exact .inr (.inl (hd hw))
  | chunk h hv e ih =>
    rcases chunk_spec h.ok ih hv with ⟨-, h1⟩ | ⟨-, L', s, a, e', h1, -, h2⟩
    · rw [e] at h1; cases h1; exact ih
    · rw [e] at h1; cases h1; exact h2
  | edit h hb ht hiv c1 c2 hv ho e ih =>
    have hle : _ ≤ _ := ((boundary_iff (Rope.text_utf8 ih.agree.text)).1 ((boundary_iff_spec (Rope.text_utf8 ih.agree.text)).2 c2)).1
    obtain ⟨L', i, e1, e2⟩ := edit_inv h.ok ih hb (by rw [ht]; exact Edited.mk' hiv hle) c1 c2 hv ho
    rw [e] at e1; cases e1; exact e2

/-- **C54** (partial).  Once the work is done, the soft breaks are those of wrapping the
whole text from scratch, whatever edits, width changes and background work came
before.  Missing: edits while the tasks are out of order, see `C54_order_refuted`. -/
theorem C54_converged_partial {rule : WrapRule} {r : Rope} {L : LinesState} (h : WrapRun rule r L) (hw : L.wraps = true) (hc : L.isConverged = true)
    (k : Nat) : BreakAt L.breaks.text k ↔ Soft rule r.text k := by
  have hwork : L.work = [] := by simpa [isConverged, hw] using hc
  by_cases h0 : 0 < k
  · exact h.inv.done hw k h0 (by rw [hwork, pending_nil]; exact id)
  · constructor
    · intro hb; exact absurd hb.1 h0
    · intro hs; exact absurd hs.pos.1 h0

/-- **C54** (partial).  Also while work is left: where nothing is pending the breaks are
right. -/
theorem C54_done_partial {rule : WrapRule} {r : Rope} {L : LinesState} (h : WrapRun rule r L) (hw : L.wraps = true)
    (k : Nat) (h0 : 0 < k) (hp : ¬ Pending L.work (k - 1)) : BreakAt L.breaks.text k ↔ Soft rule r.text k := h.inv.done hw k h0 hp

/-- **C54** (partial).  Without wrapping there are no soft breaks. -/
theorem C54_plain_partial {rule : WrapRule} {r : Rope} {L : LinesState} (h : WrapRun rule r L) (hw : L.wraps = false) (k : Nat) :
    ¬ BreakAt L.breaks.text k := h.inv.plain hw k

/-- **C54** (partial).  Text and breaks always fit together, as the conversions between
offsets and visual lines (C53) assume. -/
theorem C54_agree_partial {rule : WrapRule} {r : Rope} {L : LinesState} (h : WrapRun rule r L) : Agree r L.breaks := h.inv.agree

/-- **C54** (partial).  The background work does not panic. -/
theorem C54_chunk_safe_partial {rule : WrapRule} {r : Rope} {L : LinesState} (h : WrapRun rule r L) {vis vis' : Nat} (hv : vis ≤ vis') :
    ∃ L' i, L.rewrapChunk rule r r.text vis vis' = some (L', i) := by
  rcases chunk_spec h.ok h.inv hv with ⟨-, h1⟩ | ⟨-, L', s, a, e', h1, -, h2⟩
  · exact ⟨_, _, h1⟩
  · exact ⟨_, _, h1⟩

/-- **C54** (partial).  The update after an edit does not panic. -/
theorem C54_edit_safe_partial {rule : WrapRule} {r r' : Rope} {L : LinesState} {iv : Interval} {ins : List UInt8} {vis vis' : Nat} (h : WrapRun rule r L)
    (hb : r'.Balanced) (ht : r'.text = r.text.take iv.start ++ ins ++ r.text.drop iv.stop)
    (hiv : iv.start ≤ iv.stop) (c1 : CharBoundary r.text iv.start) (c2 : CharBoundary r.text iv.stop) (hv : vis ≤ vis')
    (ho : L.wraps = true → InOrder L.work) : ∃ L' i, L.afterEdit rule r' r r'.text iv ins.length vis vis' = some (L', i) := by
  have ih := h.inv
  have hle : _ ≤ _ := ((boundary_iff (Rope.text_utf8 ih.agree.text)).1 ((boundary_iff_spec (Rope.text_utf8 ih.agree.text)).2 c2)).1
  obtain ⟨L', i, e1, -⟩ := edit_inv h.ok ih hb (by rw [ht]; exact Edited.mk' hiv hle) c1 c2 hv ho
  exact ⟨L', i, e1⟩

theorem flags_ext {a b : List Bool} (hl : a.length = b.length) (h : ∀ k, BreakAt a k ↔ BreakAt b k) : a = b := by
  apply List.ext_getElem? 
  intro i
  have := h (i + 1)
  simp only [BreakAt, Nat.add_sub_cancel, Nat.zero_lt_succ, true_and] at this
  by_cases hi : i < a.length
  · rw [List.getElem?_eq_getElem hi, List.getElem?_eq_getElem (by omega)] at this ⊢
    simp only [Option.some.injEq] at this ⊢
    revert this
    cases a[i] <;> cases b[i] <;> simp
  · rw [List.getElem?_eq_none (by omega), List.getElem?_eq_none (by omega)]

/-- **C54** (partial).  The result does not depend on the history. -/
theorem C54_history_partial {rule : WrapRule} {r r' : Rope} {L L' : LinesState} (h : WrapRun rule r L) (h' : WrapRun rule r' L') (ht : r.text = r'.text)
    (hw : L.wraps = true) (hw' : L'.wraps = true) (hc : L.isConverged = true) (hc' : L'.isConverged = true) : L.breaks.text = L'.breaks.text := by
  apply flags_ext
  · rw [h.inv.agree.len, h'.inv.agree.len, ht]
  · intro k
    rw [C54_converged_partial h hw hc, C54_converged_partial h' hw' hc', ht]

/-- The background work for some visible ranges, one after the other. -/
def rewrapMany (rule : WrapRule) (r : Rope) (L : LinesState) (windows : List (Nat × Nat)) : Option LinesState :=
  windows.foldlM (fun L w => (L.rewrapChunk rule r r.text w.1 w.2).map (·.1)) L

/-- The amount of work. -/
def workSize (work : List Interval) : Nat := (work.map (fun t => t.stop - t.start)).sum

theorem cutTask_size {w : Interval} (hw : w.start ≤ w.stop) (t : Interval) : workSize (WrapTasks.cutTask w t) ≤ t.stop - t.start := by
  unfold WrapTasks.cutTask
  split
  · simp [workSize]
  · rename_i hn
    simp [Interval.isBefore, Interval.isAfter] at hn
    split <;> split <;> simp [workSize, Interval.pre, Interval.suf] <;> omega

theorem workSize_append (a b : List Interval) : workSize (a ++ b) = workSize a + workSize b := by simp [workSize]

theorem afterWrap_size {work : List Interval} {w u : Interval} (hu : u ∈ work) (hw : w.start < w.stop) (h1 : u.start ≤ w.start) (h2 : w.stop ≤ u.stop) :
    workSize (WrapTasks.afterWrap work w) < workSize work := by
  have hle : ∀ l : List Interval, workSize (l.flatMap (WrapTasks.cutTask w)) ≤ workSize l := by
    intro l
    induction l with
    | nil => simp [workSize]
    | cons t l ih =>
      have := cutTask_size (Nat.le_of_lt hw) t
      rw [List.flatMap_cons, workSize_append]
      simp only [workSize, List.map_cons, List.sum_cons] at *
      omega
  have hlt : workSize (WrapTasks.cutTask w u) < u.stop - u.start := by
    unfold WrapTasks.cutTask
    rw [if_neg (by simp [Interval.isBefore, Interval.isAfter]; omega)]
    split <;> split <;> simp [workSize, Interval.pre, Interval.suf] <;> omega
  unfold WrapTasks.afterWrap
  split
  · rename_i he
    rw [List.isEmpty_iff] at he
    subst he; simp at hu
  · obtain ⟨x, y, rfl⟩ := List.append_of_mem hu
    rw [List.flatMap_append, List.flatMap_cons, workSize_append, workSize_append, workSize_append]
    have a1 := hle x
    have a2 := hle y
    have a3 : workSize (u :: y) = (u.stop - u.start) + workSize y := by simp [workSize]
    omega

/-- **C54** (partial).  The background work ends: whatever is visible meanwhile, after
at most as many steps as there are bytes pending all is done. -/
theorem C54_ends_partial {rule : WrapRule} {r : Rope} {L : LinesState} (h : WrapRun rule r L) (windows : List (Nat × Nat)) (hv : ∀ w ∈ windows, w.1 ≤ w.2)
    (hn : workSize L.work ≤ windows.length) : ∃ L', rewrapMany rule r L windows = some L' ∧ L'.isConverged = true ∧ WrapRun rule r L' := by
  induction windows generalizing L with
  | nil =>
    refine ⟨L, rfl, ?_, h⟩
    simp only [isConverged, Bool.or_eq_true, beq_iff_eq, List.isEmpty_iff]
    by_cases hw : L.wraps = false
    · exact .inl hw
    · right
      cases hwork : L.work with
      | nil => rfl
      | cons t ts =>
        exfalso
        have h1 := (h.inv.tasks (by simpa using hw) t (by simp [hwork])).1
        simp [hwork, workSize] at hn
        omega
  | cons w ws ih =>
    have hv1 := hv w (by simp)
    rcases chunk_spec h.ok h.inv hv1 with ⟨h0, h1⟩ | ⟨h0, L', s, a, e', h1, h2, h3⟩
    · have hstay : ∀ ws : List (Nat × Nat), rewrapMany rule r L ws = some L := by
        intro ws
        induction ws with
        | nil => rfl
        | cons w ws ih =>
          have : L.rewrapChunk rule r r.text w.1 w.2 = some (L, none) := by
            unfold rewrapChunk; rw [h0]; rfl
          simp only [rewrapMany, List.foldlM_cons, this, Option.map_some, Option.bind_eq_bind, Option.bind_some]
          exact ih
      exact ⟨L, hstay _, h0, h⟩
    · obtain ⟨u, u1, u2, u3⟩ := h2.from_
      have hsz := afterWrap_size (w := ⟨a, e'⟩) u1 h2.lt u2 u3
      obtain ⟨L2, g1, g2, g3⟩ := ih (L := L') (.chunk h hv1 h1) (fun x hx => hv x (by simp [hx])) (by
        rw [h2.work]; simp at hn; omega)
      refine ⟨L2, ?_, g2, g3⟩
      simp only [rewrapMany, List.foldlM_cons, h1, Option.map_some, Option.bind_eq_bind, Option.bind_some]
      exact g1

theorem afterWrap_order {work : List Interval} {w : Interval} (h : InOrder work) (hw : w.start < w.stop) : InOrder (WrapTasks.afterWrap work w) := by
  unfold WrapTasks.afterWrap
  split
  · exact h
  · have hin : ∀ t x : Interval, t.start < t.stop → x ∈ WrapTasks.cutTask w t → t.start ≤ x.start ∧ x.start < x.stop ∧ x.stop ≤ t.stop := by
      intro t x ht hx
      unfold WrapTasks.cutTask at hx
      split at hx
      · simp at hx; subst hx; omega
      · rename_i hn
        simp [Interval.isBefore, Interval.isAfter] at hn
        rw [List.mem_append] at hx
        rcases hx with hx | hx
        · split at hx
          · simp [Interval.pre] at hx; subst hx; simp only; omega
          · simp at hx
        · split at hx
          · simp [Interval.suf] at hx; subst hx; simp only; omega
          · simp at hx
    have hself : ∀ t : Interval, t.start < t.stop → (WrapTasks.cutTask w t).Pairwise (fun a b => a.stop ≤ b.start) := by
      intro t ht
      unfold WrapTasks.cutTask
      split
      · simp
      · split <;> split <;> simp [Interval.pre, Interval.suf] <;> omega
    obtain ⟨h1, h2⟩ := h
    constructor
    · rw [List.pairwise_flatMap]
      refine ⟨fun t ht => hself t (h2 t ht), ?_⟩
      refine h1.imp_of_mem ?_
      intro a b ha hb hab x hx y hy
      have := hin a x (h2 a ha) hx
      have := hin b y (h2 b hb) hy
      omega
    · intro x hx
      rw [List.mem_flatMap] at hx
      obtain ⟨t, ht, hx⟩ := hx
      exact (hin t x (h2 t ht) hx).2.1

theorem add_empty_order (iv : Interval) : InOrder (WrapTasks.add [] iv) := by
  by_cases h : iv.stop ≤ iv.start
  · simp [WrapTasks.add, Interval.isEmpty, h, InOrder]
  · simp [WrapTasks.add, Interval.isEmpty, h, InOrder]; omega

/-- **C54** (partial).  Setting the width gives tasks in order. -/
theorem C54_width_order_partial (L : LinesState) (r : Rope) (wraps differs : Bool) : InOrder (L.setWrapWidth r wraps differs).work := add_empty_order _

/-- **C54** (partial).  Background work keeps the tasks in order. -/
theorem C54_chunk_order_partial {rule : WrapRule} {r : Rope} {L L' : LinesState} {vis vis' : Nat} {i : Option InvalLines} (h : WrapRun rule r L)
    (hv : vis ≤ vis') (e : L.rewrapChunk rule r r.text vis vis' = some (L', i)) (ho : InOrder L.work) : InOrder L'.work := by
  rcases chunk_spec h.ok h.inv hv with ⟨-, h1⟩ | ⟨-, L', s, a, e', h1, h2, h3⟩
  · rw [e] at h1; cases h1; exact ho
  · rw [e] at h1; cases h1
    rw [h2.work]
    exact afterWrap_order ho h2.lt

/-- **C54** (partial).  An edit when no work is left keeps the tasks in order. -/
theorem C54_edit_order_partial {rule : WrapRule} {r r' : Rope} {L L' : LinesState} {iv : Interval} {ins : List UInt8} {vis vis' : Nat} {i : Option InvalLines}
    (h : WrapRun rule r L) (hb : r'.Balanced) (ht : r'.text = r.text.take iv.start ++ ins ++ r.text.drop iv.stop)
    (hiv : iv.start ≤ iv.stop) (c1 : CharBoundary r.text iv.start) (c2 : CharBoundary r.text iv.stop) (hv : vis ≤ vis')
    (hw : L.wraps = true) (hc : L.isConverged = true) (e : L.afterEdit rule r' r r'.text iv ins.length vis vis' = some (L', i)) : InOrder L'.work := by
  have hi := h.inv
  have hle : _ ≤ _ := ((boundary_iff (Rope.text_utf8 hi.agree.text)).1 ((boundary_iff_spec (Rope.text_utf8 hi.agree.text)).2 c2)).1
  have he : Edited r.text r'.text iv.start iv.stop ins.length := by rw [ht]; exact Edited.mk' hiv hle
  obtain ⟨p, q, oe, b, w, hE⟩ := editInfo hi.agree hb he c1 c2
  rw [hE.result hi.agree he] at e
  unfold editResult at e
  have hwork : L.work = [] := by simpa [isConverged, hw] using hc
  have hi2 := hE.inv hi hb he hw (by rw [hwork]; simp [InOrder])
  have hw0 : w = [] := by
    have := hE.work
    rw [hwork] at this
    simpa [WrapTasks.patchup, WrapTasks.joinLoop] using this.symm
  subst hw0
  rw [hw] at e
  simp only [hw] at hi2
  simp only [Bool.true_eq_false, if_false] at e
  split at e
  · rename_i hne
    obtain ⟨L2, s, a, e', e1, e2⟩ := doWrapTask_spec h.ok hi2 rfl (by simpa using hne) hv
    rw [e1] at e
    simp only [Option.bind_some] at e
    have ho : InOrder L2.work := by
      rw [e2.work]
      exact afterWrap_order (add_empty_order _) e2.lt
    split at e
    · cases e; exact ho
    · cases e; exact ho
  · cases e
    exact add_empty_order _

/-! ## The report of changed lines -/

/-- The report is right: lines before the first reported one, and lines after the
reported ones, are as before (the latter moved, `T..` to `S'..`). -/
structure ReportOk (t t' : List UInt8) (b b' : List Bool) (T S' : Nat) (i : InvalLines) : Prop where
  before : ∀ n o, n ≤ i.startLine → (LineAt t b n o ↔ LineAt t' b' n o)
  after : ∀ n m, LineAt t b (i.startLine + i.invalCount + n) (T + m) ↔ LineAt t' b' (i.startLine + i.newCount + n) (S' + m)
  old : ∀ n o, LineAt t b (i.startLine + i.invalCount + n) o → T < o
  new : ∀ n o, LineAt t' b' (i.startLine + i.newCount + n) o → S' < o
  oldLe : i.startLine + i.invalCount ≤ lineIndex t b t.length + 1
  newLe : i.startLine + i.newCount ≤ lineIndex t' b' t'.length + 1

theorem count_shift {α : Type} [DecidableEq α] (x : α) (l m : List α) (o o' n : Nat)
    (h : ∀ i : Nat, i < n → (l[o + i]? = some x ↔ m[o' + i]? = some x)) :
    (l.take (o + n)).count x + (m.take o').count x = (l.take o).count x + (m.take (o' + n)).count x := by
  induction n with
  | zero => simp [Nat.add_comm]
  | succ n ih =>
    have ih := ih (fun i hi => h i (by omega))
    have hn := h n (by omega)
    rw [← Nat.add_assoc, ← Nat.add_assoc, List.take_add_one, List.take_add_one (l := m), List.count_append, List.count_append]
    have : (l[o + n]?.toList).count x = (m[o' + n]?.toList).count x := by
      have key : ∀ y : Option α, y.toList.count x = if y = some x then 1 else 0 := by
        intro y
        cases y with
        | none => simp
        | some y => simp [List.count_singleton]
      rw [key, key]
      simp only [hn]
    omega

theorem lineIndex_start_lt {t : List UInt8} {b : List Bool} {k o : Nat} (hs : Starts t b o) (h : k < o) : lineIndex t b k < lineIndex t b o := by
  have h1 := lineIndex_mono (t := t) (b := b) (o := k) (p := o - 1) (by omega)
  have h2 : lineIndex t b (o - 1) < lineIndex t b o := by
    rcases hs with hs | hs
    · have a1 := count_take_hit t newline hs.1 hs.2
      have a2 := count_take_le_take b true (o := o - 1) (p := o) (by omega)
      simp only [lineIndex]; omega
    · have a1 := count_take_hit b true hs.1 hs.2
      have a2 := count_take_le_take t newline (o := o - 1) (p := o) (by omega)
      simp only [lineIndex]; omega
  omega

/-- When the lines up to `p` and those after `T + x` (now `S' + x`) are the same, a report
of what is between them is right. -/
theorem report_ok {t t' : List UInt8} {b b' : List Bool} {p T S' x : Nat} {i : InvalLines}
    (hlen : t'.length + T = t.length + S') (hT : T + x ≤ t.length) (hS : S' + x ≤ t'.length) (hpt : p ≤ t.length) (hpt' : p ≤ t'.length)
    (hleft : ∀ k, k ≤ p → (LineBoundary t k ↔ LineBoundary t' k) ∧ (BreakAt b k ↔ BreakAt b' k))
    (hright : ∀ m, x < m → (LineBoundary t (T + m) ↔ LineBoundary t' (S' + m)) ∧ (BreakAt b (T + m) ↔ BreakAt b' (S' + m)))
    (hstart : i.startLine = lineIndex t b p) {d : Nat} (hinv : i.startLine + i.invalCount = lineIndex t b (T + x) + d)
    (hnew : i.startLine + i.newCount = lineIndex t' b' (S' + x) + d)
    (hd : d = 1 ∨ d = 0 ∧ 0 < x ∧ LineBoundary t (T + x) ∧ LineBoundary t' (S' + x)) : ReportOk t t' b b' T S' i := by
  have hL : ∀ k, k ≤ p → lineIndex t b k = lineIndex t' b' k := by
    intro k hk
    have e1 := count_shift newline t t' 0 0 k (fun j hj => by
      have := (hleft (j + 1) (by omega)).1
      simpa [LineBoundary] using this)
    have e2 := count_shift true b b' 0 0 k (fun j hj => by
      have := (hleft (j + 1) (by omega)).2
      simpa [BreakAt] using this)
    simp at e1 e2
    simp only [lineIndex]; omega
  have hR : ∀ m, lineIndex t b (T + x + m) + lineIndex t' b' (S' + x) = lineIndex t b (T + x) + lineIndex t' b' (S' + x + m) := by
    intro m
    have e1 := count_shift newline t t' (T + x) (S' + x) m (fun j hj => by
      have := (hright (x + j + 1) (by omega)).1
      simpa [LineBoundary, show T + (x + j + 1) - 1 = T + x + j by omega, show S' + (x + j + 1) - 1 = S' + x + j by omega,
        show 0 < T + (x + j + 1) by omega, show 0 < S' + (x + j + 1) by omega] using this)
    have e2 := count_shift true b b' (T + x) (S' + x) m (fun j hj => by
      have := (hright (x + j + 1) (by omega)).2
      simpa [BreakAt, show T + (x + j + 1) - 1 = T + x + j by omega, show S' + (x + j + 1) - 1 = S' + x + j by omega,
        show 0 < T + (x + j + 1) by omega, show 0 < S' + (x + j + 1) by omega] using this)
    simp only [lineIndex]; omega
  have hSL : ∀ k, k ≤ p → (Starts t b k ↔ Starts t' b' k) := by
    intro k hk
    simp only [Starts]
    rw [(hleft k hk).1, (hleft k hk).2]
  have hSR : ∀ m, x < m → (Starts t b (T + m) ↔ Starts t' b' (S' + m)) := by
    intro m hm
    simp only [Starts]
    rw [(hright m hm).1, (hright m hm).2]
  have hafter : ∀ {t : List UInt8} {b : List Bool} {T : Nat} {n o : Nat}, (d = 1 ∨ d = 0 ∧ 0 < x ∧ LineBoundary t (T + x)) →
      LineAt t b (lineIndex t b (T + x) + d + n) o → T + x < o ∨ o = T + x ∧ d = 0 := by
    intro t b T n o hd h
    rcases h with ⟨h1, -⟩ | ⟨h1, h2, h3⟩
    · exfalso
      rcases hd with hd | ⟨-, hx, hd⟩
      · omega
      · have := lineIndex_start_lt (b := b) (.inl hd : Starts t b (T + x)) (k := 0) (by omega)
        omega
    · by_cases hlt : o < T + x
      · exfalso
        have := lineIndex_mono (t := t) (b := b) (o := o) (p := T + x) (by omega)
        rcases hd with hd | ⟨-, hx, hd⟩
        · omega
        · have := lineIndex_start_lt (b := b) (.inl hd : Starts t b (T + x)) hlt
          omega
      · by_cases he : o = T + x
        · subst he
          rcases hd with hd | ⟨hd, -⟩
          · omega
          · exact .inr ⟨rfl, hd⟩
        · exact .inl (by omega)
  have hle : lineIndex t b (T + x) ≤ lineIndex t b t.length := lineIndex_mono hT
  have hle' : lineIndex t' b' (S' + x) ≤ lineIndex t' b' t'.length := lineIndex_mono hS
  refine ⟨?_, ?_, ?_, ?_, by omega, by omega⟩
  · intro n o hn
    rw [hstart] at hn
    have key : ∀ {t t' : List UInt8} {b b' : List Bool}, n ≤ lineIndex t b p → p ≤ t'.length → (∀ k, k ≤ p → lineIndex t b k = lineIndex t' b' k) →
        (∀ k, k ≤ p → (Starts t b k ↔ Starts t' b' k)) → LineAt t b n o → LineAt t' b' n o := by
      intro t t' b b' hn hp hL hS h
      rcases h with h | ⟨h1, h2, h3⟩
      · exact .inl h
      · have hop : o ≤ p := by
          apply Classical.byContradiction
          intro hlt
          have := lineIndex_start_lt h1 (k := p) (by omega)
          omega
        exact .inr ⟨(hS o hop).1 h1, by omega, by rw [← hL o hop]; exact h3⟩
    exact ⟨key hn hpt' hL hSL, key (by rw [← hL p (Nat.le_refl _)]; exact hn) hpt (fun k hk => (hL k hk).symm) (fun k hk => (hSL k hk).symm)⟩
  · intro n m
    rw [hinv, hnew]
    have hd1 : d = 1 ∨ d = 0 ∧ 0 < x ∧ LineBoundary t (T + x) := hd.imp id (fun h => ⟨h.1, h.2.1, h.2.2.1⟩)
    have hd2 : d = 1 ∨ d = 0 ∧ 0 < x ∧ LineBoundary t' (S' + x) := hd.imp id (fun h => ⟨h.1, h.2.1, h.2.2.2⟩)
    constructor
    · intro h
      have hx : x ≤ m := by rcases hafter hd1 h with h' | h' <;> omega
      have hst : Starts t' b' (S' + m) := by
        rcases hafter hd1 h with h' | ⟨h', hd0⟩
        · rcases h with ⟨-, h⟩ | ⟨h, -⟩
          · omega
          · exact (hSR m (by omega)).1 h
        · have : m = x := by omega
          subst this
          rcases hd2 with hd2 | ⟨-, -, hd2⟩
          · omega
          · exact .inl hd2
      have hr := hR (m - x)
      rw [show T + x + (m - x) = T + m by omega, show S' + x + (m - x) = S' + m by omega] at hr
      rcases h with ⟨h1, h2⟩ | ⟨h1, h2, h3⟩
      · rcases hafter hd1 (.inl ⟨h1, h2⟩) with h' | ⟨h', hd0⟩
        · omega
        · rcases hd1 with hd1 | ⟨-, h0, -⟩ <;> omega
      · exact .inr ⟨hst, by omega, by omega⟩
    · intro h
      have hx : x ≤ m := by rcases hafter hd2 h with h' | h' <;> omega
      have hst : Starts t b (T + m) := by
        rcases hafter hd2 h with h' | ⟨h', hd0⟩
        · rcases h with ⟨-, h⟩ | ⟨h, -⟩
          · omega
          · exact (hSR m (by omega)).2 h
        · have : m = x := by omega
          subst this
          rcases hd1 with hd1 | ⟨-, -, hd1⟩
          · omega
          · exact .inl hd1
      have hr := hR (m - x)
      rw [show T + x + (m - x) = T + m by omega, show S' + x + (m - x) = S' + m by omega] at hr
      rcases h with ⟨h1, h2⟩ | ⟨h1, h2, h3⟩
      · rcases hafter hd2 (.inl ⟨h1, h2⟩) with h' | ⟨h', hd0⟩
        · omega
        · rcases hd2 with hd2 | ⟨-, h0, -⟩ <;> omega
      · exact .inr ⟨hst, by omega, by omega⟩
  · intro n o h
    rw [hinv] at h
    have hd1 : d = 1 ∨ d = 0 ∧ 0 < x ∧ LineBoundary t (T + x) := hd.imp id (fun h => ⟨h.1, h.2.1, h.2.2.1⟩)
    rcases hafter hd1 h with h' | h' <;> omega
  · intro n o h
    rw [hnew] at h
    have hd2 : d = 1 ∨ d = 0 ∧ 0 < x ∧ LineBoundary t' (S' + x) := hd.imp id (fun h => ⟨h.1, h.2.1, h.2.2.2⟩)
    rcases hafter hd2 h with h' | h' <;> omega

/-- **C55** (partial).  The background work reports the lines it changed. -/
theorem C55_chunk_partial {rule : WrapRule} {r : Rope} {L L' : LinesState} {vis vis' : Nat} {i : InvalLines} (h : WrapRun rule r L) (hv : vis ≤ vis')
    (e : L.rewrapChunk rule r r.text vis vis' = some (L', some i)) : ReportOk r.text r.text L.breaks.text L'.breaks.text 0 0 i := by
  rcases chunk_spec h.ok h.inv hv with ⟨-, h1⟩ | ⟨-, L'', s, a, e', h1, h2, h3⟩
  · rw [e] at h1; cases h1
  · rw [e] at h1
    cases h1
    have hel := edge_le h2.edge'
    have hlt := h2.lt
    have m1 := count_take_le_take L.breaks.text true (o := a) (p := e') (by omega)
    have m2 := count_take_le_take r.text newline (o := a) (p := e') (by omega)
    have m3 := count_shift true L.breaks.text L'.breaks.text 0 0 a (fun j hj => by
      have := h2.breaks (j + 1)
      rw [if_neg (by omega)] at this
      simpa [BreakAt, eq_comm] using this.symm)
    have e1 := h2.startLine
    have e2 := h2.inval
    have e3 := h2.new
    have e4 := h2.soft
    simp only [lineIndex] at e1
    simp at m3
    apply report_ok (p := a) (x := e') (d := 1) rfl (by omega) (by omega) (by omega) (by omega)
    · intro k hk
      refine ⟨Iff.rfl, ?_⟩
      rw [h2.breaks, if_neg (by omega)]
    · intro m hm
      refine ⟨Iff.rfl, ?_⟩
      rw [h2.breaks, if_neg (by omega)]
    · exact h2.startLine
    · simp only [lineIndex, Nat.zero_add]; omega
    · simp only [lineIndex, Nat.zero_add]; omega
    · exact .inl rfl

theorem edit_report {r r' : Rope} {L : LinesState} {iv : Interval} {N p q oe : Nat} {b : Breaks} {w : List Interval} {b' : List Bool} {i : InvalLines}
    (h : EditInfo r r' L iv N p q oe b w) (he : Edited r.text r'.text iv.start iv.stop N)
    (hleft : ∀ k, k ≤ p → (BreakAt L.breaks.text k ↔ BreakAt b' k))
    (hright : ∀ m, LineBoundary r'.text q → q < iv.start + N + m → (BreakAt L.breaks.text (iv.stop + m) ↔ BreakAt b' (iv.start + N + m)))
    (hl1 : L.breaks.text.length = r.text.length) (hl2 : b'.length = r'.text.length)
    (h1 : i.startLine = (r'.text.take iv.start).count newline + (L.breaks.text.take p).count true)
    (h2 : i.invalCount = (r.text.take iv.stop).count newline + 1 - (r'.text.take iv.start).count newline +
      ((L.breaks.text.take oe).count true - (L.breaks.text.take p).count true))
    (h3 : i.newCount = (r'.text.take (iv.start + N)).count newline + 1 - (r'.text.take iv.start).count newline +
      ((b'.take q).count true - (b'.take p).count true)) :
    ReportOk r.text r'.text L.breaks.text b' iv.stop (iv.start + N) i ∧ ∃ p, p ≤ iv.start ∧ LineAt r.text L.breaks.text i.startLine p := by
  have hst := he.st
  have hle := he.le
  have hlen := he.len
  have g1 := h.p_le
  have g2 := h.q_ge
  have g3 := h.q_le
  have g4 := h.oe_le
  have g5 := h.oe_eq
  have g6 := h.p_count
  have m1 := count_take_le_take L.breaks.text true (o := p) (p := oe) (by omega)
  have m2 := count_take_le_take b' true (o := p) (p := q) (by omega)
  have m3 := count_shift true L.breaks.text b' 0 0 p (fun j hj => by
    have := hleft (j + 1) (by omega)
    simpa [BreakAt] using this)
  simp at m3
  have m4 : (r'.text.take iv.start).count newline ≤ (r.text.take iv.stop).count newline := by
    rw [he.left]
    exact count_take_le_take r.text newline (by omega)
  have m5 := count_take_le_take r'.text newline (o := iv.start) (p := iv.start + N) (by omega)
  have hpl : (r.text.take p).count newline = (r'.text.take p).count newline := by rw [he.take_left g1]
  have hd : ∃ d, (r.text.take oe).count newline + d = (r.text.take iv.stop).count newline + 1 ∧
      (r'.text.take q).count newline + d = (r'.text.take (iv.start + N)).count newline + 1 ∧
      (d = 1 ∧ q = r'.text.length ∨ d = 0 ∧ iv.start + N < q ∧ LineBoundary r.text oe ∧ LineBoundary r'.text q) := by
    have hc := edited_count_right he (q - (iv.start + N))
    rw [show iv.start + N + (q - (iv.start + N)) = q by omega, ← g5] at hc
    rcases h.q_end with ⟨a1, a2⟩ | ⟨a1, a2, a3⟩
    · exact ⟨1, by omega, by omega, .inl ⟨rfl, a1⟩⟩
    · refine ⟨0, by omega, by omega, .inr ⟨rfl, a2, ?_, a1⟩⟩
      rw [g5]
      apply (he.boundary_right (by omega)).1
      rw [show iv.start + N + (q - (iv.start + N)) = q by omega]
      exact a1
  obtain ⟨d, d1, d2, d3⟩ := hd
  have hx1 : iv.stop + (q - (iv.start + N)) = oe := g5.symm
  have hx2 : iv.start + N + (q - (iv.start + N)) = q := by omega
  have hsl : i.startLine = lineIndex r.text L.breaks.text p := by simp only [lineIndex]; omega
  refine ⟨?_, p, g1, ?_⟩
  rotate_left
  · rcases h.p_start with h0 | h0
    · subst h0
      exact .inl ⟨by rw [hsl, lineIndex_zero], rfl⟩
    · exact .inr ⟨.inl ((he.boundary_left (by omega)).1 h0), by omega, hsl.symm⟩
  apply report_ok (p := p) (x := q - (iv.start + N)) (d := d) (by omega) (by omega) (by omega) (by omega) (by omega)
  · intro k hk
    exact ⟨(he.boundary_left (by omega)).symm, hleft k hk⟩
  · intro m hm
    refine ⟨(he.boundary_right (by omega)).symm, ?_⟩
    rcases d3 with ⟨-, d3⟩ | ⟨-, -, -, d3⟩
    · constructor
      · intro hb
        have := (List.getElem?_eq_some_iff.1 hb.2).1
        omega
      · intro hb
        have := (List.getElem?_eq_some_iff.1 hb.2).1
        omega
    · exact hright m d3 (by omega)
  · simp only [lineIndex]; omega
  · rw [hx1]; simp only [lineIndex]; omega
  · rw [hx2]; simp only [lineIndex]; omega
  · rw [hx1, hx2]
    rcases d3 with ⟨d3, -⟩ | ⟨d3, d4, d5, d6⟩
    · exact .inl d3
    · exact .inr ⟨d3, by omega, d5, d6⟩

/-- **C55** (partial).  When all was wrapped before an edit (or there is no wrapping),
the update after the edit reports the lines that changed, from one that starts at or before
the edit, if it reports anything (otherwise the caller redraws everything).  See `C55_edit_refuted` for the case that
work was left. -/
theorem C55_edit_partial {rule : WrapRule} {r r' : Rope} {L L' : LinesState} {iv : Interval} {ins : List UInt8} {vis vis' : Nat} {i : InvalLines}
    (h : WrapRun rule r L) (hb : r'.Balanced) (ht : r'.text = r.text.take iv.start ++ ins ++ r.text.drop iv.stop)
    (hiv : iv.start ≤ iv.stop) (c1 : CharBoundary r.text iv.start) (c2 : CharBoundary r.text iv.stop) (hv : vis ≤ vis')
    (hc : L.isConverged = true) (e : L.afterEdit rule r' r r'.text iv ins.length vis vis' = some (L', some i)) :
    ReportOk r.text r'.text L.breaks.text L'.breaks.text iv.stop (iv.start + ins.length) i ∧
      ∃ p, p ≤ iv.start ∧ LineAt r.text L.breaks.text i.startLine p := by
  have hi := h.inv
  have hle : _ ≤ _ := ((boundary_iff (Rope.text_utf8 hi.agree.text)).1 ((boundary_iff_spec (Rope.text_utf8 hi.agree.text)).2 c2)).1
  have he : Edited r.text r'.text iv.start iv.stop ins.length := by rw [ht]; exact Edited.mk' hiv hle
  generalize ins.length = N at *
  obtain ⟨p, q, oe, b, w, hE⟩ := editInfo hi.agree hb he c1 c2
  rw [hE.result hi.agree he] at e
  unfold editResult at e
  have hl := hi.agree.len
  have hst := he.st
  have hlen := he.len
  have hpl := hE.p_le
  have hqg := hE.q_ge
  have hbr : ∀ k, BreakAt b.text k ↔ k ≤ iv.start ∧ BreakAt L.breaks.text k ∨
      iv.start + N < k ∧ BreakAt L.breaks.text (iv.stop + (k - (iv.start + N))) := by
    intro k; rw [hE.text, breakAt_blanked hst (by omega)]
  have hbl : ∀ k, k ≤ p → (BreakAt L.breaks.text k ↔ BreakAt b.text k) := by
    intro k hk
    rw [hbr]
    constructor
    · intro hh; exact .inl ⟨by omega, hh⟩
    · rintro (⟨-, hh⟩ | ⟨hh, -⟩)
      · exact hh
      · omega
  have hbal := hE.agree hi.agree hb he
  cases hw : L.wraps with
  | false =>
    rw [hw, if_pos rfl] at e
    cases e
    have z : ∀ k, (L.breaks.text.take k).count true = 0 := by
      intro k
      rw [List.count_eq_zero]
      intro hm
      obtain ⟨j, hj⟩ := List.mem_iff_getElem?.1 (List.mem_of_mem_take hm)
      exact hi.plain hw (j + 1) ⟨by omega, by simpa using hj⟩
    have z' : ∀ k, (b.text.take k).count true = 0 := by
      intro k
      rw [List.count_eq_zero]
      intro hm
      obtain ⟨j, hj⟩ := List.mem_iff_getElem?.1 (List.mem_of_mem_take hm)
      rcases (hbr (j + 1)).1 ⟨by omega, by simpa using hj⟩ with ⟨-, hh⟩ | ⟨-, hh⟩
      · exact hi.plain hw _ hh
      · exact hi.plain hw _ hh
    apply edit_report hE he hbl _ hl hbal.len
    · simp [z]
    · simp [z]
    · simp [z']
    · intro m _ hm
      rw [hbr]
      constructor
      · intro hh; exact absurd hh (hi.plain hw _)
      · rintro (⟨-, hh⟩ | ⟨-, hh⟩)
        · exact absurd hh (hi.plain hw _)
        · exact absurd hh (hi.plain hw _)
  | true =>
    have hwork : L.work = [] := by simpa [isConverged, hw] using hc
    have hi2 := hE.inv hi hb he hw (by rw [hwork]; simp [InOrder])
    have hw0 : w = [] := by
      have := hE.work
      rw [hwork] at this
      simpa [WrapTasks.patchup, WrapTasks.joinLoop] using this.symm
    subst hw0
    rw [hw] at e
    simp only [hw] at hi2
    simp only [Bool.true_eq_false, if_false] at e
    split at e
    · rename_i hne
      obtain ⟨L2, s, a, e', e1, e2⟩ := doWrapTask_spec h.ok hi2 rfl (by simpa using hne) hv
      rw [e1] at e
      simp only [Option.bind_some] at e
      split at e
      · rename_i hcv
        cases e
        have hadd : WrapTasks.add [] ⟨p, q⟩ = [⟨p, q⟩] := by
          by_cases hz : q ≤ p
          · simp [WrapTasks.add, Interval.isEmpty, hz] at hne
          · simp [WrapTasks.add, Interval.isEmpty, hz]
        have hw2 : L'.wraps = true := e2.wraps
        have hwk : L'.work = [] := by simpa [isConverged, hw2] using hcv
        have hpend : ∀ x, Pending L'.work x ↔ Pending [⟨p, q⟩] x ∧ ¬ (⟨a, e'⟩ : Interval).Has x := by
          intro x
          rw [e2.work, hadd]
          exact C48_after_wrap _ _ x
        obtain ⟨u, u1, u2, u3⟩ := e2.from_
        simp only [hadd, List.mem_singleton] at u1
        subst u1
        simp only at u2 u3
        have hlt := e2.lt
        have hap : a = p := by
          have := hpend p
          rw [hwk] at this
          simp [Pending, Interval.Has] at this
          omega
        have heq : e' = q := by
          have := hpend (q - 1)
          rw [hwk] at this
          simp [Pending, Interval.Has] at this
          omega
        subst hap heq
        have hi3 := e2.inv h.ok hi2 rfl
        have hsoft : ∀ k, BreakAt L.breaks.text k ↔ Soft rule r.text k := C54_converged_partial h hw hc
        have hsoft' : ∀ k, BreakAt L'.breaks.text k ↔ Soft rule r'.text k := by
          intro k
          by_cases h0 : 0 < k
          · exact hi3.done hw2 k h0 (by rw [hwk, pending_nil]; exact id)
          · constructor
            · intro hb; exact absurd hb.1 h0
            · intro hs; exact absurd hs.pos.1 h0
        have m3 := count_shift true L.breaks.text b.text 0 0 a (fun j hj => by
          have := hbl (j + 1) (by omega)
          simpa [BreakAt] using this)
        simp at m3
        have e3 := e2.startLine
        have e4 := e2.soft
        have e5 := hE.p_count
        simp only [lineIndex] at e3
        apply edit_report hE he _ _ hl hi3.agree.len
        · show s.startLine = _
          omega
        · rfl
        · show _ + s.newSoft = _
          omega
        · intro k hk
          rw [hsoft, hsoft', he.soft_before hpl hE.p_start hk]
        · intro m hq hm
          rw [hsoft, hsoft']
          by_cases hz : iv.start + N < e'
          · exact (he.soft_after (p := e' - (iv.start + N)) (by rw [show iv.start + N + (e' - (iv.start + N)) = e' by omega]; exact hq) (by omega) (by omega)).symm
          · rcases hE.q_end with ⟨a1, -⟩ | ⟨-, a2, -⟩
            · have b1 := fun hs : Soft rule r.text (iv.stop + m) => hs.pos
              have b2 := fun hs : Soft rule r'.text (iv.start + N + m) => hs.pos
              constructor
              · intro hs; have := b1 hs; omega
              · intro hs; have := b2 hs; omega
            · omega
      · cases e
    · cases e

/-! ## Examples, and where the properties fail -/

/-- A rule for the examples: break after every space. -/
def exampleRule : WrapRule := fun s i =>
  (List.range (s.length + 1)).find? (fun j => i < j && isCharBoundary s j &&
    (s[j - 1]? == some newline && j == s.length || s[j - 1]? == some 32 && j != s.length))

theorem exampleRule_ok : exampleRule.Ok := by
  refine ⟨fun {s i j} h => ?_, fun {s i} h => ?_, fun {s i} h1 h2 h3 => ?_, fun {s i j} hu h => ?_⟩
  · have h1 := List.find?_some h
    have h2 := List.mem_of_find?_eq_some h
    simp at h1 h2
    omega
  · have h1 := List.find?_some h
    simp at h1
    rw [List.getLast?_eq_getElem?]
    exact h1.2
  · refine Option.isSome_iff_exists.1 (List.find?_isSome.2 ⟨s.length, by simp, ?_⟩)
    rw [List.getLast?_eq_getElem?] at h2
    simp [h2, h3, isCharBoundary]
  · have h1 := List.find?_some h
    simp at h1
    exact (boundary_iff_spec hu).1 h1.1.2

/-- A small text as a rope. -/
def smallRope (s : String) : Rope := .fromLeaf (s.toList.flatMap String.utf8EncodeChar)

theorem small_text (s : String) : (smallRope s).text = s.toList.flatMap String.utf8EncodeChar := Node.text_fromLeaf

theorem small_balanced {s : String} (h : (s.toList.flatMap String.utf8EncodeChar).length ≤ 1024) : (smallRope s).Balanced :=
  ⟨0, Node.wf_fromLeaf ⟨⟨s.toList, rfl⟩, h⟩⟩

theorem small_boundary {s : String} {k : Nat} (h : isCharBoundary (s.toList.flatMap String.utf8EncodeChar) k = true) :
    CharBoundary (smallRope s).text k := by
  rw [small_text]
  exact (boundary_iff_spec ⟨s.toList, rfl⟩).1 h

/-- The state before there is any text. -/
def freshLines : LinesState := ⟨Breaks.newNoBreak 0, false, []⟩

/-- The width set for a text of two lines. -/
def exampleWrap : LinesState := freshLines.setWrapWidth (smallRope "a b\nc d\n") true true

theorem exampleWrap_run : WrapRun exampleRule (smallRope "a b\nc d\n") exampleWrap :=
  .start exampleRule_ok (small_balanced (by decide +kernel)) (by decide +kernel)

/-- Background work, then an edit, then all is wrapped. -/
example : (rewrapChunk exampleRule exampleWrap (smallRope "a b\nc d\n") (smallRope "a b\nc d\n").text 0 5).map (fun x => (x.1.work, x.2)) =
      some ([], some ⟨0, 3, 5⟩) ∧
    ((rewrapChunk exampleRule exampleWrap (smallRope "a b\nc d\n") (smallRope "a b\nc d\n").text 0 5).bind (fun x =>
      afterEdit exampleRule x.1 (smallRope "a b\nc x y d\n") (smallRope "a b\nc d\n") (smallRope "a b\nc x y d\n").text ⟨6, 6⟩ 4 0 5)).map
        (fun x => (x.1.work, x.1.breaks.text, x.2)) =
      some ([], [false, true, false, false, false, true, false, true, false, true, false, false], some ⟨2, 2, 4⟩) := by
  decide +kernel

/-- Lines of the text for the next theorem. -/
def tenLines : Rope := smallRope "aaaa\naaaa\naaaa\naaaa\naaaa\naaaa\naaaa\naaaa\naaaa\naaaa\n"

/-- A step of background work on `tenLines`. -/
def tenChunk (vis : Nat) (L : LinesState) : Option LinesState :=
  (rewrapChunk exampleRule L tenLines tenLines.text vis (vis + 1)).map (·.1)

/-- Replacing one byte of `tenLines` by itself. -/
def tenEdit (o vis : Nat) (L : LinesState) : Option LinesState :=
  (afterEdit exampleRule L tenLines tenLines tenLines.text ⟨o, o + 1⟩ 1 vis (vis + 1)).map (·.1)

/-- The state after the first step, and so on. -/
def tenState1 : Option LinesState := tenChunk 4 (freshLines.setWrapWidth tenLines true true)

/-- See `tenState1`. -/
def tenState2 : Option LinesState := tenState1.bind (tenEdit 31 3)

/-- See `tenState1`. -/
def tenState3 : Option LinesState := tenState2.bind (tenEdit 41 2)

/-- See `tenState1`. -/
def tenState4 : Option LinesState := tenState3.bind (tenEdit 11 1)

theorem tenEdit_run {L L' : LinesState} {o vis : Nat} (h : WrapRun exampleRule tenLines L) (e : tenEdit o vis L = some L') (ho : InOrder L.work)
    (ht : tenLines.text = tenLines.text.take o ++ [97] ++ tenLines.text.drop (o + 1))
    (c1 : CharBoundary tenLines.text o) (c2 : CharBoundary tenLines.text (o + 1)) : WrapRun exampleRule tenLines L' := by
  unfold tenEdit at e
  obtain ⟨⟨L1, i⟩, e1, rfl⟩ := Option.map_eq_some_iff.1 e
  exact .edit (ins := [97]) h h.inv.agree.text ht (Nat.le_succ _) c1 c2 (Nat.le_succ _) (fun _ => ho) e1

theorem tenState_run : ∃ L, tenState4 = some L ∧ WrapRun exampleRule tenLines L := by
  have w1 : tenState1.map (·.work) = some [⟨0, 20⟩] := by decide +kernel
  have w2 : tenState2.map (·.work) = some [⟨0, 15⟩, ⟨30, 35⟩] := by decide +kernel
  have w3 : tenState3.map (·.work) = some [⟨0, 10⟩, ⟨30, 35⟩, ⟨40, 45⟩] := by decide +kernel
  have w4 : tenState4.isSome := by decide +kernel
  have r0 : WrapRun exampleRule tenLines (freshLines.setWrapWidth tenLines true true) :=
    .start exampleRule_ok (small_balanced (by decide +kernel)) (by decide +kernel)
  obtain ⟨L1, e1, w1⟩ := Option.map_eq_some_iff.1 w1
  obtain ⟨L2, e2, w2⟩ := Option.map_eq_some_iff.1 w2
  obtain ⟨L3, e3, w3⟩ := Option.map_eq_some_iff.1 w3
  obtain ⟨L4, e4⟩ := Option.isSome_iff_exists.1 w4
  have r1 : WrapRun exampleRule tenLines L1 := by
    have e1' : tenChunk 4 _ = some L1 := e1
    unfold tenChunk at e1'
    obtain ⟨⟨L, i⟩, e, rfl⟩ := Option.map_eq_some_iff.1 e1'
    exact .chunk r0 (Nat.le_succ _) e
  have r2 : WrapRun exampleRule tenLines L2 := by
    have : tenState2 = tenState1.bind (tenEdit 31 3) := rfl
    rw [e1, e2] at this
    exact tenEdit_run r1 this.symm (by rw [w1]; simp [InOrder]) (by decide +kernel) (small_boundary (by decide +kernel))
      (small_boundary (by decide +kernel))
  have r3 : WrapRun exampleRule tenLines L3 := by
    have : tenState3 = tenState2.bind (tenEdit 41 2) := rfl
    rw [e2, e3] at this
    exact tenEdit_run r2 this.symm (by rw [w2]; simp [InOrder]) (by decide +kernel) (small_boundary (by decide +kernel))
      (small_boundary (by decide +kernel))
  refine ⟨L4, e4, ?_⟩
  have : tenState4 = tenState3.bind (tenEdit 11 1) := rfl
  rw [e3, e4] at this
  exact tenEdit_run r3 this.symm (by rw [w3]; simp [InOrder]) (by decide +kernel) (small_boundary (by decide +kernel))
    (small_boundary (by decide +kernel))

/-- `tenLines` without the bytes from 4 to 12. -/
def nineLines : Rope := smallRope "aaaaaa\naaaa\naaaa\naaaa\naaaa\naaaa\naaaa\naaaa\n"

/-- **C54** fails in general: three edits (each while some of the text above is not
wrapped yet) get the list of tasks out of order.  Deleting text between two lines then
leaves a task that does not start at the start of a line, and working on it fails the
assertion `cursor.offset == task.start` (linewrap.rs:369). -/
theorem C54_order_refuted : ∃ (rule : WrapRule) (r r' : Rope) (L : LinesState) (iv : Interval) (ins : List UInt8) (vis vis' : Nat),
    WrapRun rule r L ∧ r'.Balanced ∧ r'.text = r.text.take iv.start ++ ins ++ r.text.drop iv.stop ∧ iv.start ≤ iv.stop ∧
    CharBoundary r.text iv.start ∧ CharBoundary r.text iv.stop ∧ vis ≤ vis' ∧
    L.afterEdit rule r' r r'.text iv ins.length vis vis' = none := by
  obtain ⟨L, e, h⟩ := tenState_run
  refine ⟨exampleRule, tenLines, nineLines, L, ⟨4, 12⟩, [], 8, 9, h, small_balanced (by decide +kernel), by decide +kernel, by decide,
    small_boundary (by decide +kernel), small_boundary (by decide +kernel), by decide, ?_⟩
  have : (tenState4.bind (fun L => L.afterEdit exampleRule nineLines tenLines nineLines.text ⟨4, 12⟩ 0 8 9)).isNone := by decide +kernel
  rw [e] at this
  simpa using this

/-- **C55** fails when an edit falls into text that was not wrapped yet, and the update
wraps all that was left: the report counts the old lines of the edited line only, but the
new lines of all the text that was wrapped.  Here old line 1 is said to be
new line 3. -/
theorem C55_edit_refuted : ∃ (rule : WrapRule) (r r' : Rope) (L L' : LinesState) (iv : Interval) (ins : List UInt8) (vis vis' : Nat) (i : InvalLines),
    WrapRun rule r L ∧ r'.Balanced ∧ r'.text = r.text.take iv.start ++ ins ++ r.text.drop iv.stop ∧ iv.start ≤ iv.stop ∧
    CharBoundary r.text iv.start ∧ CharBoundary r.text iv.stop ∧ vis ≤ vis' ∧ InOrder L.work ∧
    L.afterEdit rule r' r r'.text iv ins.length vis vis' = some (L', some i) ∧
    ¬ ReportOk r.text r'.text L.breaks.text L'.breaks.text iv.stop (iv.start + ins.length) i := by
  have hres : (exampleWrap.afterEdit exampleRule (smallRope "a b\ncx d\n") (smallRope "a b\nc d\n") (smallRope "a b\ncx d\n").text ⟨5, 5⟩ 1 0 5).map
      (fun x => (x.1.breaks.text, x.2)) = some ([false, true, false, false, false, false, true, false, false], some ⟨0, 1, 3⟩) := by decide +kernel
  obtain ⟨⟨L', i⟩, e1, e2⟩ := Option.map_eq_some_iff.1 hres
  simp only [Prod.mk.injEq] at e2
  obtain ⟨e2, rfl⟩ := e2
  refine ⟨exampleRule, smallRope "a b\nc d\n", smallRope "a b\ncx d\n", exampleWrap, L', ⟨5, 5⟩, [120], 0, 5, ⟨0, 1, 3⟩, exampleWrap_run,
    small_balanced (by decide +kernel), by decide +kernel, by decide, small_boundary (by decide +kernel), small_boundary (by decide +kernel), by decide,
    ?_, e1, ?_⟩
  · have : exampleWrap.work = [⟨0, 8⟩] := by decide +kernel
    rw [this]; simp [InOrder]
  · intro h
    have h := (h.after 0 1).2
    simp only at h
    rw [e2] at h
    have h := h (.inr ⟨.inr ⟨by decide, by decide +kernel⟩, by decide +kernel, by decide +kernel⟩)
    rcases h with ⟨h, -⟩ | ⟨h | h, -⟩
    · exact absurd h (by decide)
    · exact absurd h.2 (by decide +kernel)
    · exact absurd h.2 (by decide +kernel)

end Xi
