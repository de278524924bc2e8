import Verif.Core.WrapTasks
import Verif.Spec.Interval

/-!
# Pending wrap work (core-lib/src/linewrap.rs): C48
-/

namespace Xi

open WrapTasks

/-- The position `p` is in some pending task. -/
def Pending (work : List Interval) (p : Nat) : Prop := ∃ t ∈ work, t.Has p

theorem pending_nil (p : Nat) : Pending [] p ↔ False := by simp [Pending]

theorem pending_cons (t : Interval) (ts : List Interval) (p : Nat) : Pending (t :: ts) p ↔ t.Has p ∨ Pending ts p := by simp [Pending]

theorem pending_append (a b : List Interval) (p : Nat) : Pending (a ++ b) p ↔ Pending a p ∨ Pending b p := by
  simp only [Pending, List.mem_append]
  constructor
  · rintro ⟨t, h | h, h'⟩
    · exact .inl ⟨t, h, h'⟩
    · exact .inr ⟨t, h, h'⟩
  · rintro (⟨t, h, h'⟩ | ⟨t, h, h'⟩)
    · exact ⟨t, .inl h, h'⟩
    · exact ⟨t, .inr h, h'⟩

/-- The union of overlapping intervals is their union as sets. -/
theorem union_has {a b : Interval} (h : (a.intersect b).isEmpty = false) (p : Nat) : (a.union b).Has p ↔ a.Has p ∨ b.Has p := by
  simp [Interval.intersect, Interval.isEmpty] at h
  simp only [Interval.union, Interval.isEmpty, Interval.Has]
  by_cases h1 : a.stop ≤ a.start
  · omega
  · by_cases h2 : b.stop ≤ b.start
    · omega
    · simp only [h1, h2, decide_false, Bool.false_eq_true, if_false]
      omega

theorem addLoop_pending (ts : List Interval) : ∀ (new : Option Interval) (work : List Interval) (p : Nat),
    Pending (addLoop ts new work) p ↔ Pending work p ∨ Pending ts p ∨ Pending new.toList p := by
  induction ts with
  | nil =>
    intro new work p
    cases new <;> simp [addLoop, pending_append, pending_nil, pending_cons]
  | cons t ts ih =>
    intro new work p
    cases new with
    | none =>
      rw [addLoop, ih, pending_append, pending_cons t ts]
      simp only [Option.toList_none, pending_nil, pending_cons]
      grind
    | some new =>
      rw [addLoop]
      by_cases h : (t.intersect new).isEmpty = true
      · simp only [h, Bool.not_true, Bool.false_eq_true, if_false]
        rw [ih, pending_append, pending_cons t ts]
        simp only [Option.toList_none, Option.toList_some, pending_nil, pending_cons]
        grind
      · rw [Bool.not_eq_true] at h
        simp only [h, Bool.not_false, if_true]
        rw [ih, pending_cons t ts]
        simp only [Option.toList_some, pending_nil, pending_cons, union_has h]
        grind

/-- **C48.** After adding a task exactly the positions pending before and those of
the task are pending. -/
theorem C48_add_task (work : List Interval) (iv : Interval) (p : Nat) : Pending (add work iv) p ↔ Pending work p ∨ iv.Has p := by
  unfold add
  split
  · rename_i h
    simp [Interval.isEmpty] at h
    simp only [Interval.Has]
    constructor
    · exact .inl
    · rintro (h' | h')
      · exact h'
      · omega
  · split
    · simp [pending_append, pending_cons, pending_nil]
    · rename_i idx _
      rw [addLoop_pending]
      have : Pending work p ↔ Pending (work.take idx) p ∨ Pending (work.drop idx) p := by
        rw [← pending_append, List.take_append_drop]
      rw [this]
      simp only [Option.toList_some, pending_cons, pending_nil]
      grind

/-- **C48.** After wrapping a range exactly the positions outside of the range stay
pending. -/
theorem C48_after_wrap (work : List Interval) (wrapped : Interval) (p : Nat) :
    Pending (afterWrap work wrapped) p ↔ Pending work p ∧ ¬ wrapped.Has p := by
  unfold afterWrap
  split
  · rename_i h
    rw [List.isEmpty_iff] at h
    subst h
    simp [pending_nil]
  · induction work with
    | nil => simp [pending_nil]
    | cons t ts ih =>
      have ih : Pending (ts.flatMap (cutTask wrapped)) p ↔ Pending ts p ∧ ¬ wrapped.Has p := by
        by_cases hts : ts = []
        · subst hts; simp [pending_nil]
        · exact ih (by simpa using hts)
      rw [List.flatMap_cons, pending_append, ih, pending_cons]
      have key : Pending (cutTask wrapped t) p ↔ t.Has p ∧ ¬ wrapped.Has p := by
        unfold cutTask
        by_cases h1 : (t.isBefore wrapped.start || t.isAfter wrapped.stop) = true
        · rw [if_pos h1]
          simp [Interval.isBefore, Interval.isAfter] at h1
          simp only [pending_cons, pending_nil, Interval.Has]
          grind
        · rw [if_neg h1]
          simp [Interval.isBefore, Interval.isAfter] at h1
          rw [pending_append]
          by_cases h2 : wrapped.start > t.start <;> by_cases h3 : wrapped.stop < t.stop <;>
            simp only [h2, h3, if_true, if_false, pending_cons, pending_nil, Interval.Has, Interval.pre, Interval.suf] <;> grind
      rw [key]
      grind

/-- **C48.** While there is work, a task is chosen; it is part of a pending task,
and not empty if the pending ones are not. -/
theorem C48_next_task (work : List Interval) (visible : Nat) (h : work ≠ []) (hne : ∀ t ∈ work, t.start < t.stop) :
    ∃ iv, getNext work visible = some (some iv) ∧ iv.start < iv.stop ∧ ∀ p, iv.Has p → Pending work p := by
  unfold getNext
  split
  · rename_i t ht
    have h1 := List.find?_some ht
    have h2 := List.mem_of_find?_eq_some ht
    have h3 := hne t h2
    simp at h1
    refine ⟨⟨max t.start visible, t.stop⟩, ?_, ?_, ?_⟩
    · simp only [Interval.new]
      rw [if_pos (by omega)]
      rfl
    · show max t.start visible < t.stop; omega
    · intro p hp
      exact ⟨t, h2, by simp only [Interval.Has] at hp ⊢; omega⟩
  · obtain ⟨t, ht⟩ : ∃ t, work.getLast? = some t := by
      rw [List.getLast?_eq_some_getLast h]; exact ⟨_, rfl⟩
    have hm := List.mem_of_getLast? ht
    exact ⟨t, by rw [ht], hne t hm, fun p hp => ⟨t, hm, hp⟩⟩

/-- Where a position outside of the replaced range goes. -/
def Moved (iv : Interval) (newLen p q : Nat) : Prop :=
  p < iv.start ∧ q = p ∨ iv.stop ≤ p ∧ q = p - (iv.stop - iv.start) + newLen

/-- The positions that should be pending after a replacement: those that were
moved, and new ones if the start of the replaced range was pending; the task is
taken to go on for the length of what it loses or gains. -/
def PendingAfter (work : List Interval) (iv : Interval) (newLen q : Nat) : Prop :=
  (∃ p, Pending work p ∧ Moved iv newLen p q) ∨
  (∃ t ∈ work, t.Has iv.start ∧ iv.start ≤ q ∧ q < t.stop + newLen - (iv.stop - iv.start))

theorem translateNeg_some {iv : Interval} {n : Nat} (h1 : n ≤ iv.start) (h2 : n ≤ iv.stop) :
    iv.translateNeg n = some ⟨iv.start - n, iv.stop - n⟩ := by
  unfold Interval.translateNeg
  exact if_pos ⟨h1, h2⟩

theorem shiftTask_spec (iv : Interval) (newLen : Nat) (t : Interval) (hiv : iv.start ≤ iv.stop) :
    ∃ l, shiftTask iv newLen t = some l ∧ ∀ q, Pending l q ↔ PendingAfter [t] iv newLen q := by
  have hsz : iv.size = some (iv.stop - iv.start) := by simp [Interval.size, hiv]
  have hafter : ∀ q, PendingAfter [t] iv newLen q ↔ (∃ p, t.Has p ∧ Moved iv newLen p q) ∨
      (t.Has iv.start ∧ iv.start ≤ q ∧ q < t.stop + newLen - (iv.stop - iv.start)) := by
    intro q; simp [PendingAfter, Pending]
  unfold shiftTask
  by_cases h1 : t.isBefore iv.start = true
  · rw [if_pos h1]
    refine ⟨[t], rfl, fun q => ?_⟩
    simp only [Interval.isBefore, decide_eq_true_eq] at h1
    rw [hafter]
    simp only [pending_cons, pending_nil, or_false, Interval.Has, Moved]
    constructor
    · intro h; exact .inl ⟨q, h, .inl ⟨by omega, rfl⟩⟩
    · rintro (⟨p, h, h' | h'⟩ | h)
      · omega
      · omega
      · omega
  · rw [if_neg h1]
    simp only [Interval.isBefore, decide_eq_true_eq] at h1
    by_cases h2 : t.contains iv.start = true
    · rw [if_pos h2]
      simp only [Interval.contains, Bool.and_eq_true, decide_eq_true_eq] at h2
      simp only [hsz, Interval.new, Option.bind_eq_bind, Option.bind_some]
      rw [if_pos (by omega)]
      refine ⟨_, rfl, fun q => ?_⟩
      rw [hafter]
      simp only [pending_cons, pending_nil, or_false, Interval.Has, Moved, Interval.pre]
      constructor
      · rintro (h | h)
        · exact .inl ⟨q, by omega, .inl (by omega)⟩
        · exact .inr (by omega)
      · rintro (⟨p, h, h' | h'⟩ | h) <;> omega
    · rw [if_neg h2]
      simp only [Interval.contains, Bool.and_eq_true, decide_eq_true_eq] at h2
      simp only [hsz, Option.bind_eq_bind, Option.bind_some]
      rw [translateNeg_some (by simp only [Interval.translate, Interval.suf]; omega) (by simp only [Interval.translate, Interval.suf]; omega)]
      simp only [Interval.translate, Interval.suf]
      refine ⟨_, rfl, fun q => ?_⟩
      rw [hafter]
      simp only [pending_cons, pending_nil, or_false, Interval.Has, Moved]
      constructor
      · intro h
        exact .inl ⟨q + (iv.stop - iv.start) - newLen, by omega, .inr (by omega)⟩
      · rintro (⟨p, h, h' | h'⟩ | h) <;> omega

theorem shiftTasks_spec (iv : Interval) (newLen : Nat) (hiv : iv.start ≤ iv.stop) (work : List Interval) :
    ∃ ls, work.mapM (shiftTask iv newLen) = some ls ∧ ∀ q, Pending ls.flatten q ↔ PendingAfter work iv newLen q := by
  induction work with
  | nil => exact ⟨[], rfl, fun q => by simp [PendingAfter, Pending]⟩
  | cons t ts ih =>
    obtain ⟨l, e1, h1⟩ := shiftTask_spec iv newLen t hiv
    obtain ⟨ls, e2, h2⟩ := ih
    refine ⟨l :: ls, by simp [List.mapM_cons, e1, e2], fun q => ?_⟩
    rw [List.flatten_cons, pending_append, h1, h2]
    simp only [PendingAfter, pending_cons, pending_nil, List.mem_cons, List.not_mem_nil, or_false]
    constructor
    · rintro ((⟨p, h, h'⟩ | ⟨t', rfl, h⟩) | ⟨p, h, h'⟩ | ⟨t', ht, h⟩)
      · exact .inl ⟨p, .inl h, h'⟩
      · exact .inr ⟨t', .inl rfl, h⟩
      · exact .inl ⟨p, .inr h, h'⟩
      · exact .inr ⟨t', .inr ht, h⟩
    · rintro (⟨p, h | h, h'⟩ | ⟨t', rfl | ht, h⟩)
      · exact .inl (.inl ⟨p, h, h'⟩)
      · exact .inr (.inl ⟨p, h, h'⟩)
      · exact .inl (.inr ⟨t', rfl, h⟩)
      · exact .inr (.inr ⟨t', ht, h⟩)

theorem pending_filter (l : List Interval) (q : Nat) : Pending (l.filter (fun iv => !iv.isEmpty)) q ↔ Pending l q := by
  simp only [Pending, List.mem_filter]
  constructor
  · rintro ⟨t, ⟨h, -⟩, h'⟩; exact ⟨t, h, h'⟩
  · rintro ⟨t, h, h'⟩
    refine ⟨t, ⟨h, ?_⟩, h'⟩
    simp only [Interval.Has] at h'
    simp [Interval.isEmpty]; omega

theorem getLast?_split {l : List Interval} {x : Interval} (h : l.getLast? = some x) : l = l.dropLast ++ [x] := by
  obtain ⟨ys, rfl⟩ := List.getLast?_eq_some_iff.1 h
  simp

theorem joinLoop_covers (ts : List Interval) : ∀ (work : List Interval) (q : Nat), Pending work q ∨ Pending ts q →
    Pending (joinLoop ts work) q := by
  induction ts with
  | nil => intro work q h; simpa [joinLoop, pending_nil] using h
  | cons t ts ih =>
    intro work q h
    rw [pending_cons] at h
    rw [joinLoop]
    split
    · rename_i prev hp
      split
      · apply ih
        rw [pending_append, pending_cons, pending_nil]
        rw [getLast?_split hp, pending_append, pending_cons, pending_nil] at h
        have : prev.Has q ∨ t.Has q → (prev.union t).Has q := by
          simp only [Interval.union, Interval.isEmpty, Interval.Has]
          by_cases h1 : prev.stop ≤ prev.start
          · simp only [h1, decide_true, if_true]; omega
          · by_cases h2 : t.stop ≤ t.start
            · simp only [h1, h2, decide_true, decide_false, Bool.false_eq_true, if_true, if_false]; omega
            · simp only [h1, h2, decide_false, Bool.false_eq_true, if_false]
              omega
        grind
      · apply ih
        rw [pending_append, pending_cons, pending_nil]; grind
    · apply ih
      rw [pending_append, pending_cons, pending_nil]; grind

/-- **C48.** An edit forgets no pending position: after it every position that
should be pending is.  No panic. -/
theorem C48_after_edit (work : List Interval) (iv : Interval) (newLen : Nat) (hiv : iv.start ≤ iv.stop) :
    ∃ work', patchup work iv newLen = some work' ∧ ∀ q, PendingAfter work iv newLen q → Pending work' q := by
  obtain ⟨ls, e1, h1⟩ := shiftTasks_spec iv newLen hiv work
  refine ⟨_, by simp only [patchup, e1, Option.bind_eq_bind, Option.bind_some]; rfl, fun q hq => ?_⟩
  apply joinLoop_covers
  right
  rw [pending_filter, h1]
  exact hq

/-- The start of each task is at most that of the ones after it. -/
def StartsSorted (work : List Interval) : Prop := work.Pairwise (fun a b => a.start ≤ b.start)

theorem joinLoop_exact (ts : List Interval) : ∀ (work : List Interval) (q : Nat), StartsSorted (work ++ ts) →
    (∀ t ∈ work ++ ts, t.start < t.stop) → (Pending (joinLoop ts work) q ↔ Pending work q ∨ Pending ts q) := by
  induction ts with
  | nil => intro work q _ _; simp [joinLoop, pending_nil]
  | cons t ts ih =>
    intro work q hs hne
    rw [joinLoop, pending_cons]
    have hpush : StartsSorted ((work ++ [t]) ++ ts) ∧ (∀ x ∈ (work ++ [t]) ++ ts, x.start < x.stop) := by
      simpa using And.intro hs hne
    split
    · rename_i prev hp
      obtain ⟨ys, rfl⟩ := List.getLast?_eq_some_iff.1 hp
      have h1 := hne prev (by simp)
      have h2 := hne t (by simp)
      have h3 : prev.start ≤ t.start := by
        have := (List.pairwise_append.1 hs).2.2 prev (by simp) t (by simp)
        exact this
      split
      · rename_i hge
        have hu : prev.union t = ⟨prev.start, max prev.stop t.stop⟩ := by
          simp only [Interval.union]
          rw [if_neg (by simp [Interval.isEmpty]; omega), if_neg (by simp [Interval.isEmpty]; omega)]
          simp only [Interval.mk.injEq, and_true]; omega
        rw [hu, List.dropLast_concat, ih]
        · rw [pending_append, pending_append, pending_cons, pending_cons, pending_nil]
          have : Interval.Has ⟨prev.start, max prev.stop t.stop⟩ q ↔ prev.Has q ∨ t.Has q := by
            simp only [Interval.Has]; omega
          rw [this]; grind
        · simp only [StartsSorted, List.append_assoc, List.cons_append, List.nil_append, List.pairwise_append, List.pairwise_cons,
            List.mem_cons] at hs ⊢
          obtain ⟨a1, ⟨a2, a3, a4⟩, a5⟩ := hs
          refine ⟨a1, ⟨fun x hx => a2 x (.inr hx), a4⟩, ?_⟩
          rintro x hx y (rfl | hy)
          · exact a5 x hx prev (.inl rfl)
          · exact a5 x hx y (.inr (.inr hy))
        · intro x hx
          simp only [List.append_assoc, List.cons_append, List.nil_append, List.mem_append, List.mem_cons] at hx
          rcases hx with hx | rfl | hx
          · exact hne x (by simp [hx])
          · show prev.start < max prev.stop t.stop; omega
          · exact hne x (by simp [hx])
      · rw [ih _ _ hpush.1 hpush.2, pending_append, pending_cons, pending_nil]; grind
    · rw [ih _ _ hpush.1 hpush.2, pending_append, pending_cons, pending_nil]; grind

/-- The tasks are in order and do not overlap. -/
def InOrder (work : List Interval) : Prop := work.Pairwise (fun a b => a.stop ≤ b.start) ∧ ∀ t ∈ work, t.start < t.stop

theorem shiftTask_starts (iv : Interval) (newLen : Nat) (hiv : iv.start ≤ iv.stop) {t : Interval} (ht : t.start < t.stop)
    {l : List Interval} (h : shiftTask iv newLen t = some l) : StartsSorted l ∧ ∀ x ∈ l, (t.stop ≤ iv.start → x = t) ∧
      (t.start ≤ iv.start → t.start ≤ x.start ∧ x.start ≤ iv.start) ∧
      (iv.start < t.start → x.start = max t.start iv.stop + newLen - (iv.stop - iv.start)) := by
  have hsz : iv.size = some (iv.stop - iv.start) := by simp [Interval.size, hiv]
  unfold shiftTask at h
  split at h
  · rename_i h1
    simp only [Interval.isBefore, decide_eq_true_eq] at h1
    simp only [Option.pure_def, Option.some.injEq] at h
    subst h
    refine ⟨by simp [StartsSorted], ?_⟩
    simp only [List.mem_singleton, forall_eq]
    refine ⟨fun _ => trivial, ?_, ?_⟩ <;> omega
  · rename_i h1
    simp only [Interval.isBefore, decide_eq_true_eq] at h1
    split at h
    · rename_i h2
      simp only [Interval.contains, Bool.and_eq_true, decide_eq_true_eq] at h2
      simp only [hsz, Interval.new, Option.bind_eq_bind, Option.bind_some] at h
      rw [if_pos (by omega)] at h
      simp only [Option.bind_some, Option.pure_def, Option.some.injEq] at h
      subst h
      refine ⟨by simp [StartsSorted, Interval.pre]; omega, ?_⟩
      simp only [List.mem_cons, List.not_mem_nil, or_false, forall_eq_or_imp, forall_eq, Interval.pre]
      refine ⟨⟨fun h => absurd h h1, by omega, by omega⟩, fun h => absurd h h1, by omega, by omega⟩
    · rename_i h2
      simp only [Interval.contains, Bool.and_eq_true, decide_eq_true_eq] at h2
      simp only [hsz, Option.bind_eq_bind, Option.bind_some] at h
      rw [translateNeg_some (by simp only [Interval.translate, Interval.suf]; omega) (by simp only [Interval.translate, Interval.suf]; omega)] at h
      simp only [Option.bind_some, Option.pure_def, Option.some.injEq, Interval.translate, Interval.suf] at h
      subst h
      refine ⟨by simp [StartsSorted], ?_⟩
      simp only [List.mem_singleton, forall_eq]
      refine ⟨fun h => absurd h h1, by omega, by intros; trivial⟩

theorem shiftTasks_starts (iv : Interval) (newLen : Nat) (hiv : iv.start ≤ iv.stop) (work : List Interval) : ∀ (ls : List (List Interval)),
    work.mapM (shiftTask iv newLen) = some ls → InOrder work →
    StartsSorted ls.flatten ∧ ∀ x ∈ ls.flatten, ∃ t ∈ work, ∃ l, shiftTask iv newLen t = some l ∧ x ∈ l := by
  induction work with
  | nil => intro ls h _; simp at h; subst h; simp [StartsSorted]
  | cons t ts ih =>
    intro ls h ho
    obtain ⟨o1, o2⟩ := ho
    rw [List.pairwise_cons] at o1
    rw [List.mapM_cons] at h
    simp only [Option.bind_eq_bind, Option.bind_eq_some_iff, Option.pure_def, Option.some.injEq] at h
    obtain ⟨l, h1, ls', h2, rfl⟩ := h
    obtain ⟨g1, g2⟩ := ih ls' h2 ⟨o1.2, fun x hx => o2 x (by simp [hx])⟩
    have ht := o2 t (by simp)
    obtain ⟨k1, k2⟩ := shiftTask_starts iv newLen hiv ht h1
    constructor
    · rw [StartsSorted, List.flatten_cons, List.pairwise_append]
      refine ⟨k1, g1, fun x hx y hy => ?_⟩
      obtain ⟨u, hu, m, hm, hym⟩ := g2 y hy
      have hu2 := o2 u (by simp [hu])
      have htu := o1.1 u hu
      obtain ⟨a1, a2, a3⟩ := k2 x hx
      obtain ⟨b1, b2, b3⟩ := (shiftTask_starts iv newLen hiv hu2 hm).2 y hym
      by_cases hus : u.start ≤ iv.start
      · have := a1 (by omega)
        have := b2 hus
        subst x
        omega
      · have := b3 (by omega)
        by_cases hts : t.start ≤ iv.start
        · have := a2 hts; omega
        · have := a3 (by omega); omega
    · intro x hx
      rw [List.flatten_cons, List.mem_append] at hx
      rcases hx with hx | hx
      · exact ⟨t, by simp, l, h1, hx⟩
      · obtain ⟨u, hu, m, hm⟩ := g2 x hx
        exact ⟨u, by simp [hu], m, hm⟩

/-- **C48** (partial).  If the tasks are in order, an edit makes exactly those
positions pending that should be.  Missing: `add_task` can leave them out of
order, see `C48_after_edit_refuted`. -/
theorem C48_after_edit_exact_partial (work : List Interval) (iv : Interval) (newLen : Nat) (hiv : iv.start ≤ iv.stop) (ho : InOrder work) :
    ∃ work', patchup work iv newLen = some work' ∧ ∀ q, Pending work' q ↔ PendingAfter work iv newLen q := by
  obtain ⟨ls, e1, h1⟩ := shiftTasks_spec iv newLen hiv work
  obtain ⟨s1, -⟩ := shiftTasks_starts iv newLen hiv work ls e1 ho
  refine ⟨_, by simp only [patchup, e1, Option.bind_eq_bind, Option.bind_some]; rfl, fun q => ?_⟩
  rw [joinLoop_exact, pending_filter, h1]
  · simp [pending_nil]
  · rw [List.nil_append]; exact List.Pairwise.filter _ s1
  · intro t ht
    rw [List.nil_append, List.mem_filter] at ht
    have := ht.2
    simp [Interval.isEmpty] at this
    exact this

/-- **C48** (refuted part).  Two tasks added out of order: a later edit beyond both
makes the finished text between them pending again, and it is wrapped a second
time. -/
theorem C48_after_edit_refuted : ∃ work', patchup (add (add [] ⟨50, 60⟩) ⟨10, 20⟩) ⟨90, 90⟩ 1 = some work' ∧
    Pending work' 30 ∧ ¬ PendingAfter (add (add [] ⟨50, 60⟩) ⟨10, 20⟩) ⟨90, 90⟩ 1 30 := by
  refine ⟨[⟨10, 60⟩], by decide, ⟨⟨10, 60⟩, by simp, by simp [Interval.Has]⟩, ?_⟩
  have e : add (add [] ⟨50, 60⟩) ⟨10, 20⟩ = [⟨50, 60⟩, ⟨10, 20⟩] := by decide
  rw [e]
  rintro (⟨p, ⟨t, ht, hp⟩, hm⟩ | ⟨t, ht, hp⟩) <;>
    (simp at ht; rcases ht with rfl | rfl <;> simp [Interval.Has, Moved] at * <;> omega)

/-- Non-vacuity: three tasks; the wrapped range, the new task and the edit meet
some of them. -/
example : InOrder [⟨2, 5⟩, ⟨8, 20⟩, ⟨30, 31⟩] ∧ add [⟨2, 5⟩, ⟨8, 20⟩, ⟨30, 31⟩] ⟨4, 9⟩ = [⟨2, 20⟩, ⟨30, 31⟩] ∧
    afterWrap [⟨2, 5⟩, ⟨8, 20⟩, ⟨30, 31⟩] ⟨4, 9⟩ = [⟨2, 4⟩, ⟨9, 20⟩, ⟨30, 31⟩] ∧
    patchup [⟨2, 5⟩, ⟨8, 20⟩, ⟨30, 31⟩] ⟨12, 15⟩ 7 = some [⟨2, 5⟩, ⟨8, 24⟩, ⟨34, 35⟩] := by
  refine ⟨⟨by simp, by simp⟩, by decide, by decide, by decide⟩

end Xi
