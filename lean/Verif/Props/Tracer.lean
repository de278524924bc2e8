import Verif.Trace.Tracer
import Verif.Spec.Tracer
import Verif.Props.Trace
import Verif.Props.Wire

/-!
# C98: the tracer keeps the newest samples, and only while it is on
-/

namespace Xi

namespace Tracer

open Wire (Sample EventType)

/-- What a step does to the store. -/
def entryOf (w : Tracing) : Act → List Entry
  | .enable n => [.limit n]
  | .disable => [.limit 0]
  | .instant .. => []
  | .block .. => []
  | .closure .. => []
  | .record i => match w.passed[i]? with | some (s, _) => [.sample s] | none => []
  | .drop i now => match w.guards[i]? with | some s => [.sample { s with timestamp := now / 1000, eventType := .durationEnd }] | none => []

/-- `Logged w acts log w'`: the steps lead from `w` to `w'`, and `log` is what happened to the store. -/
inductive Logged : Tracing → List Act → List Entry → Tracing → Prop
  | nil (w : Tracing) : Logged w [] [] w
  | snoc (w : Tracing) (acts : List Act) (log : List Entry) (w' w'' : Tracing) (a : Act) (h : Logged w acts log w')
    (hs : w'.step a = some w'') : Logged w (acts ++ [a]) (log ++ entryOf w' a) w''

theorem run_append (w : Tracing) (a b : List Act) : w.run (a ++ b) = (w.run a).bind fun w => w.run b := by
  induction a generalizing w with
  | nil => rfl
  | cons x a ih =>
    simp only [List.cons_append, Tracing.run]
    cases w.step x with
    | none => rfl
    | some v => exact ih v

/-- A log tells of a run. -/
theorem logged_run {w w' : Tracing} {acts : List Act} {log : List Entry} (h : Logged w acts log w') : w.run acts = some w' := by
  induction h with
  | nil => rfl
  | snoc acts log w' w'' a h hs ih => simp only [run_append, ih, Option.bind_some, Tracing.run, hs]

/-- The clock does not go back during a closure. -/
def Forward : Act → Prop
  | .closure _ _ start finish => start ≤ finish
  | _ => True

theorem newest_snoc {α : Type} (k : Nat) (l : List α) (x : α) : newest k l ++ [x] = newest (k + 1) (l ++ [x]) := by
  simp only [newest, List.length_append, List.length_cons, List.length_nil]
  rw [show l.length + (0 + 1) - (k + 1) = l.length - k by omega, List.drop_append_of_le_length (by omega)]

theorem recorded_append (a b : List Entry) : recorded (a ++ b) = recorded a ++ recorded b := List.filterMap_append

/-- What is true of the store after the log. -/
structure Kept (t : Trace) (log : List Entry) : Prop where
  size : t.samples.storage.length ≤ t.samples.limit
  limit : t.samples.limit = limitOf log
  counted : (log.foldl count (0, 0)).1 = t.samples.limit
  store : t.samples.storage = newest (kept log) (recorded log)
  off : t.enabled = false → t.samples.limit = 0

theorem Kept.push {t : Trace} {log : List Entry} (h : Kept t log) (s : Sample) :
    Kept (t.record s) (log ++ [.sample s]) := by
  obtain ⟨d, h1, h2, h3⟩ := C41_step t.samples h.size (.pushBack s)
  simp only [FixedLifoDeque.step, Option.some.injEq] at h1
  simp only [DequeOp.meaning, Prod.mk.injEq] at h2
  subst h1
  have hk : kept (log ++ [.sample s]) = min (kept log + 1) t.samples.limit := by
    rw [kept, List.foldl_append]
    show min (kept log + 1) (log.foldl count (0, 0)).1 = _
    rw [h.counted]
  refine ⟨h3, ?_, ?_, ?_, ?_⟩
  · show (t.samples.pushBack s).limit = _
    rw [h2.1, h.limit, limitOf, limitOf, List.foldl_append]
    rfl
  · rw [List.foldl_append]
    show (log.foldl count (0, 0)).1 = (t.samples.pushBack s).limit
    rw [h.counted, h2.1]
  · show (t.samples.pushBack s).storage = _
    rw [h2.2, h.store, newest_snoc, newest_newest, hk, recorded_append, Nat.min_comm]
    rfl
  · intro e
    show (t.samples.pushBack s).limit = 0
    rw [h2.1]
    exact h.off e

theorem Kept.reset {t : Trace} {log : List Entry} (h : Kept t log) (n : Nat) (b : Bool) (hb : b = false → n = 0) :
    ∃ d, t.samples.resetLimit n = some d ∧ Kept ⟨b, d⟩ (log ++ [.limit n]) := by
  obtain ⟨d, h1, h2, h3⟩ := C41_step t.samples h.size (.resetLimit n)
  simp only [FixedLifoDeque.step] at h1
  simp only [DequeOp.meaning, Prod.mk.injEq] at h2
  have hk : kept (log ++ [.limit n]) = min (kept log) n := by
    rw [kept, List.foldl_append]
    rfl
  refine ⟨d, h1, h3, ?_, ?_, ?_, ?_⟩
  · show d.limit = _
    rw [h2.1, limitOf, List.foldl_append]
    rfl
  · rw [List.foldl_append]
    show n = d.limit
    rw [h2.1]
  · show d.storage = _
    rw [h2.2, h.store, newest_newest, hk, recorded_append, Nat.min_comm]
    simp [recorded]
  · intro e
    show d.limit = 0
    rw [h2.1]
    exact hb e

/-- What is true at all times: the store is that of the log, the samples that wait are not ends of blocks, and begin one
just if they are for one; and of each block as many are open as have begun and not ended. -/
structure Fine (w : Tracing) (log : List Entry) : Prop where
  kept : Kept w.trace log
  waiting : ∀ s b, (s, b) ∈ w.passed → s.eventType ≠ .durationEnd ∧ (b = true ↔ s.eventType = .durationBegin)
  opened : ∀ s ∈ w.guards, s.eventType = .durationBegin
  balance : ∀ x, ends x (recorded log) + begins x w.guards = begins x (recorded log)

theorem fine_start : Fine .start [] where
  kept := ⟨Nat.le_refl _, rfl, rfl, rfl, fun _ => rfl⟩
  waiting := fun s b h => absurd h (by simp [Tracing.start])
  opened := fun s h => absurd h (by simp [Tracing.start])
  balance := fun _ => rfl

theorem Fine.pass {w : Tracing} {log : List Entry} (h : Fine w log) (s : Sample) (b : Bool)
    (hs : s.eventType ≠ .durationEnd ∧ (b = true ↔ s.eventType = .durationBegin)) : Fine (w.pass s b) log := by
  unfold Tracing.pass
  split
  · refine ⟨h.kept, ?_, h.opened, h.balance⟩
    intro s' b' hm
    rcases List.mem_append.mp hm with hm | hm
    · exact h.waiting s' b' hm
    · simp only [List.mem_singleton, Prod.mk.injEq] at hm
      obtain ⟨rfl, rfl⟩ := hm
      exact hs
  · exact h

theorem countP_eraseIdx {α : Type} (p : α → Bool) {l : List α} {i : Nat} {x : α} (h : l[i]? = some x) :
    l.countP p = (l.eraseIdx i).countP p + (if p x then 1 else 0) := by
  induction l generalizing i with
  | nil => exact absurd h (by simp)
  | cons a l ih =>
    cases i with
    | zero =>
      simp only [List.getElem?_cons_zero, Option.some.injEq] at h
      subst h
      simp only [List.eraseIdx_cons_zero, List.countP_cons]
    | succ i =>
      simp only [List.getElem?_cons_succ] at h
      simp only [List.eraseIdx_cons_succ, List.countP_cons, ih h]
      omega

theorem begins_append (x : Sample) (a b : List Sample) : begins x (a ++ b) = begins x a + begins x b := List.countP_append
theorem ends_append (x : Sample) (a b : List Sample) : ends x (a ++ b) = ends x a + ends x b := List.countP_append

theorem Fine.step {w : Tracing} {log : List Entry} (h : Fine w log) (a : Act) (ha : Forward a) :
    ∃ w', w.step a = some w' ∧ Fine w' (log ++ entryOf w a) := by
  cases a with
  | enable n =>
    obtain ⟨d, h1, h2⟩ := h.kept.reset n true (fun e => by cases e)
    refine ⟨⟨⟨true, d⟩, w.passed, w.guards⟩, by simp only [Tracing.step, Trace.enable, h1]; rfl, h2, h.waiting, h.opened, ?_⟩
    intro x
    simpa [recorded_append, recorded, entryOf] using h.balance x
  | disable =>
    obtain ⟨d, h1, h2⟩ := h.kept.reset 0 false (fun _ => rfl)
    refine ⟨⟨⟨false, d⟩, w.passed, w.guards⟩, by simp only [Tracing.step, Trace.disable, h1]; rfl, h2, h.waiting, h.opened, ?_⟩
    intro x
    simpa [recorded_append, recorded, entryOf] using h.balance x
  | instant e x =>
    refine ⟨_, rfl, ?_⟩
    rw [entryOf, List.append_nil]
    exact h.pass _ _ (by simp [Tracer.instant])
  | block e x =>
    refine ⟨_, rfl, ?_⟩
    rw [entryOf, List.append_nil]
    exact h.pass _ _ (by simp [marker])
  | closure e x s f =>
    have hf : s ≤ f := ha
    refine ⟨_, by simp only [Tracing.step]; rw [if_neg (by omega)], ?_⟩
    rw [entryOf, List.append_nil]
    exact h.pass _ _ (by simp [complete])
  | record i =>
    simp only [Tracing.step, entryOf]
    cases hp : w.passed[i]? with
    | none => exact ⟨w, rfl, by simpa using h⟩
    | some sb =>
      obtain ⟨s, b⟩ := sb
      refine ⟨_, rfl, h.kept.push s, ?_, ?_, ?_⟩
      · intro s' b' hm
        exact h.waiting s' b' (List.mem_of_mem_eraseIdx hm)
      · intro s' hm
        dsimp only at hm
        split at hm
        · rcases List.mem_append.mp hm with hm | hm
          · exact h.opened s' hm
          · rw [List.mem_singleton] at hm
            subst hm
            exact ((h.waiting s' b (List.mem_of_getElem? hp)).2).mp (by assumption)
        · exact h.opened s' hm
      · intro x
        obtain ⟨h1, h2⟩ := h.waiting s b (List.mem_of_getElem? hp)
        have hr : recorded [.sample s] = [s] := rfl
        rw [recorded_append, ends_append, begins_append, hr]
        have he : ends x [s] = 0 := by simp [ends, h1]
        have := h.balance x
        dsimp only
        cases b with
        | true =>
          simp only [if_true, begins_append]
          omega
        | false =>
          have hb : begins x [s] = 0 := by
            have : s.eventType ≠ .durationBegin := fun e => by simpa using h2.mpr e
            simp [begins, this]
          simp only [Bool.false_eq_true, if_false]
          omega
  | drop i now =>
    simp only [Tracing.step, entryOf]
    cases hp : w.guards[i]? with
    | none => exact ⟨w, rfl, by simpa using h⟩
    | some s =>
      refine ⟨_, rfl, h.kept.push _, h.waiting, ?_, ?_⟩
      · intro s' hm
        exact h.opened s' (List.mem_of_mem_eraseIdx hm)
      · intro x
        have hs := h.opened s (List.mem_of_getElem? hp)
        have hbal := h.balance x
        have hr : recorded [.sample { s with timestamp := now / 1000, eventType := .durationEnd }] =
          [{ s with timestamp := now / 1000, eventType := .durationEnd }] := rfl
        rw [recorded_append, ends_append, begins_append, hr]
        have hcount := countP_eraseIdx (fun t : Sample => decide (t.eventType = .durationBegin) && decide (blockOf t = x)) hp
        have hb : begins x [{ s with timestamp := now / 1000, eventType := .durationEnd }] = 0 := by simp [begins]
        have he : ends x [{ s with timestamp := now / 1000, eventType := .durationEnd }] = if blockOf s = x then 1 else 0 := by
          simp only [ends, blockOf, List.countP_cons, List.countP_nil, decide_true, Bool.true_and]
          by_cases hx : ({ s with timestamp := 0, eventType := .durationBegin } : Sample) = x <;> simp [hx]
        simp only [hs, decide_true, Bool.true_and, decide_eq_true_eq] at hcount
        dsimp only
        unfold begins at hbal hb ⊢
        rw [hcount] at hbal
        omega

theorem fine_logged {acts : List Act} {log : List Entry} {w : Tracing} (h : Logged .start acts log w)
    (hf : ∀ a ∈ acts, Forward a) : Fine w log := by
  generalize hw : Tracing.start = w0 at h
  induction h with
  | nil => subst hw; exact fine_start
  | snoc acts log w' w'' a h hs ih =>
    subst hw
    obtain ⟨v, hv, hfine⟩ := (ih (fun b hb => hf b (by simp [hb]))).step a (hf a (by simp))
    rw [hv] at hs
    injection hs with hs
    subst hs
    exact hfine

/-- **C98** (no panic): whatever threads do, while the clock goes forward, nothing panics. -/
theorem C98_runs (acts : List Act) (hf : ∀ a ∈ acts, Forward a) :
    ∃ log w, Logged .start acts log w ∧ Tracing.start.run acts = some w := by
  suffices h : ∃ log w, Logged .start acts log w by
    obtain ⟨log, w, h⟩ := h
    exact ⟨log, w, h, logged_run h⟩
  have gen : ∀ rev : List Act, (∀ a ∈ rev, Forward a) → ∃ log w, Logged .start rev.reverse log w := by
    intro rev
    induction rev with
    | nil => exact fun _ => ⟨[], _, .nil _⟩
    | cons a rev ih =>
      intro hf
      obtain ⟨log, w, h⟩ := ih (fun b hb => hf b (by simp [hb]))
      obtain ⟨w', hw', _⟩ := (fine_logged h (fun b hb => hf b (by simpa using Or.inr (List.mem_reverse.mp hb)))).step a (hf a (by simp))
      rw [List.reverse_cons]
      exact ⟨_, _, .snoc _ _ _ _ _ a h hw'⟩
  have := gen acts.reverse (fun a ha => hf a (List.mem_reverse.mp ha))
  rwa [List.reverse_reverse] at this

/-- **C98** (the store): at all times the store has the newest of all samples that were recorded, one more with each, but
never more than the limit in force; and while tracing is off, none. -/
theorem C98_store {acts : List Act} {log : List Entry} {w : Tracing} (h : Logged .start acts log w)
    (hf : ∀ a ∈ acts, Forward a) :
    w.trace.samples.storage = newest (kept log) (recorded log) ∧ w.trace.samples.storage.length ≤ limitOf log ∧
      (w.trace.enabled = false → w.trace.samples.storage = []) := by
  have hk := (fine_logged h hf).kept
  refine ⟨hk.store, hk.limit ▸ hk.size, fun e => ?_⟩
  have := hk.size
  rw [hk.off e] at this
  exact List.eq_nil_of_length_eq_zero (by omega)

/-- **C98** (off): what comes by while tracing is off leaves no trace, not even later. -/
theorem C98_off (w : Tracing) (h : w.trace.enabled = false) (e : Here) (x : Subject) (s f : Nat) :
    w.step (.instant e x) = some w ∧ w.step (.block e x) = some w ∧ w.step (.closure e x s f) = some w := by
  simp [Tracing.step, Tracing.pass, h]

/-- **C98** (blocks): at all times each block, known by all but the time, has begun in the log as often as it has ended
there and is still open. -/
theorem C98_blocks_partial {acts : List Act} {log : List Entry} {w : Tracing} (h : Logged .start acts log w)
    (hf : ∀ a ∈ acts, Forward a) (x : Sample) :
    ends x (recorded log) ≤ begins x (recorded log) ∧
      begins x (recorded log) = ends x (recorded log) + begins x w.guards ∧
      (w.guards = [] → begins x (recorded log) = ends x (recorded log)) := by
  have := (fine_logged h hf).balance x
  refine ⟨by omega, this.symm, fun e => ?_⟩
  rw [e] at this
  exact this.symm

/-- A thread of the example. -/
def demoHere (now : Nat) : Here := ⟨now, 7, 1, some "main"⟩

/-- A subject of the example. -/
def demoSubject : Subject := ⟨"load", ["core".toList], none⟩

/-- In the store, an end may be without its beginning: tracing was turned off and on within the block. -/
theorem C98_blocks_refuted :
    ∃ acts w, (∀ a ∈ acts, Forward a) ∧ Tracing.start.run acts = some w ∧ w.guards = [] ∧
      w.trace.samples.storage.map (·.eventType) = [.durationEnd] := by
  refine ⟨[.enable 10, .block (demoHere 1000) demoSubject, .record 0, .disable, .enable 10, .drop 0 9000], _, ?_, rfl, rfl, by decide +kernel⟩
  intro a ha
  simp only [List.mem_cons, List.not_mem_nil, or_false] at ha
  rcases ha with rfl | rfl | rfl | rfl | rfl | rfl <;> trivial

/-- A run with two samples in the store. -/
example : (Tracing.start.run [.enable 10, .block (demoHere 1000) demoSubject, .record 0, .drop 0 9000]).map
    (fun w => w.trace.samples.storage.map fun s => (s.timestamp, s.eventType)) =
      some [(1, .durationBegin), (9, .durationEnd)] := by decide +kernel

/-! ## Names of threads -/

/-- The names in turn, after a name that is known. -/
def runsAfter : Option String → List String → List String
  | _, [] => []
  | prev, n :: ns => if prev = some n then runsAfter prev ns else n :: runsAfter (some n) ns

theorem runs_cons (n : String) (ns : List String) : n :: runsAfter (some n) ns = runs (n :: ns) := by
  induction ns generalizing n with
  | nil => rfl
  | cons m ns ih =>
    simp only [runs, runsAfter]
    by_cases h : n = m
    · subst h
      simp only [if_true, ih]
    · rw [if_neg (by simpa using h), if_neg h, ih]

theorem runsAfter_none (ns : List String) : runsAfter none ns = runs ns := by
  cases ns with
  | nil => rfl
  | cons n ns =>
    rw [← runs_cons]
    simp [runsAfter]

theorem threadNames_spec (first pid tid : Nat) (l : List Sample) (seen : List (Nat × String)) :
    givenTo tid (threadNames first pid seen l) = runsAfter (seen.lookup tid) (namesOf tid l) := by
  induction l generalizing seen with
  | nil => rfl
  | cons s l ih =>
    have hn : namesOf tid (s :: l) = (if s.tid = tid then s.threadName else none).toList ++ namesOf tid l := by
      simp only [namesOf, List.filterMap_cons]
      cases (if s.tid = tid then s.threadName else none) <;> rfl
    rw [hn]
    simp only [threadNames]
    cases ht : s.threadName with
    | none => simp [ih]
    | some name =>
      dsimp only
      have hlook : List.lookup tid ((s.tid, name) :: seen) = if s.tid = tid then some name else seen.lookup tid := by
        rw [List.lookup_cons]
        by_cases h : s.tid = tid
        · simp [h]
        · have hb : (tid == s.tid) = false := by simpa using fun e => h e.symm
          simp only [hb, if_neg h]
      by_cases hs : s.tid = tid
      · subst hs
        simp only [if_true] at hlook
        simp only [if_true, Option.toList_some, List.cons_append, List.nil_append, runsAfter]
        split
        · rename_i h
          rw [ih, hlook, h]
        · rename_i h
          have : givenTo s.tid (metadata first pid "thread_name" name s.tid :: threadNames first pid ((s.tid, name) :: seen) l) =
              name :: givenTo s.tid (threadNames first pid ((s.tid, name) :: seen) l) := by
            simp [givenTo, metadata]
          rw [this, ih, hlook]
      · rw [if_neg hs] at hlook
        simp only [if_neg hs, Option.toList_none, List.nil_append]
        split
        · rw [ih, hlook]
        · have : givenTo tid (metadata first pid "thread_name" name s.tid :: threadNames first pid ((s.tid, name) :: seen) l) =
              givenTo tid (threadNames first pid ((s.tid, name) :: seen) l) := by
            simp [givenTo, metadata, hs]
          rw [this, ih, hlook]

/-- **C98** (names): before the samples, as they are in the store, come samples of metadata that give each thread the
names it had, in turn. -/
theorem C98_names (t : Trace) (exe : Option String) (pid : Nat) (hne : t.samples.storage ≠ []) :
    ∃ process names, t.samplesCloned exe pid = process ++ names ++ t.samples.storage ∧
      process.map (fun s => (s.name, s.eventType, s.args.bind (·.name))) =
        (exe.map fun n => ("process_name", EventType.metadata, some n)).toList ∧
      (∀ s ∈ names, s.name = "thread_name" ∧ s.eventType = .metadata ∧ s.pid = pid) ∧
      ∀ tid, givenTo tid names = runs (namesOf tid t.samples.storage) := by
  cases hst : t.samples.storage with
  | nil => exact absurd hst hne
  | cons front rest =>
    refine ⟨(match exe with
      | some name => [metadata front.timestamp pid "process_name" name front.tid]
      | none => []), threadNames front.timestamp pid [] (front :: rest), ?_, ?_, ?_, fun tid => ?_⟩
    · simp only [Trace.samplesCloned, hst]
      cases exe <;> rfl
    · cases exe <;> rfl
    · generalize front :: rest = l
      have gen : ∀ (first : Nat) (seen : List (Nat × String)), ∀ s ∈ threadNames first pid seen l,
          s.name = "thread_name" ∧ s.eventType = .metadata ∧ s.pid = pid := by
        intro first
        induction l with
        | nil => intro seen s hs; exact absurd hs (by simp [threadNames])
        | cons a l ih =>
          intro seen s hs
          simp only [threadNames] at hs
          split at hs
          · exact ih _ s hs
          · split at hs
            · exact ih _ s hs
            · rcases List.mem_cons.mp hs with rfl | hs
              · exact ⟨rfl, rfl, rfl⟩
              · exact ih _ s hs
      exact gen _ _
    · rw [threadNames_spec, ← runsAfter_none]
      rfl

/-- The samples of metadata were meant to have the time of the first sample, but it is divided by 1000 once more. -/
theorem C98_names_time_refuted (t : Trace) (name : String) (pid : Nat) (front : Sample) (rest : List Sample)
    (h : t.samples.storage = front :: rest) (h0 : 0 < front.timestamp) :
    ∃ s l, t.samplesCloned (some name) pid = s :: l ∧ s.name = "process_name" ∧ s.timestamp < front.timestamp := by
  simp only [Trace.samplesCloned, h]
  refine ⟨_, _, rfl, rfl, ?_⟩
  show front.timestamp / 1000 < front.timestamp
  omega

/-- A list sorted by time is what is before a time followed by what is not. -/
theorem split_sorted (l : List Sample) (time : Nat) (h : l.Pairwise fun a b => a.timestamp ≤ b.timestamp) :
    l = l.filter (fun s => decide (s.timestamp < time)) ++ l.filter (fun s => !decide (s.timestamp < time)) := by
  induction l with
  | nil => rfl
  | cons a l ih =>
    rw [List.pairwise_cons] at h
    by_cases ha : a.timestamp < time
    · simp only [List.filter_cons, ha, decide_true, Bool.not_true, if_true]
      exact congrArg (a :: ·) (ih h.2)
    · have all : ∀ s ∈ a :: l, ¬ s.timestamp < time := by
        intro s hs
        rcases List.mem_cons.mp hs with rfl | hs
        · exact ha
        · have := h.1 s hs
          omega
      rw [List.filter_eq_nil_iff.mpr fun s hs => by simpa using all s hs,
        List.filter_eq_self.mpr fun s hs => by simpa using all s hs]
      rfl

/-- **C98** (sorting): sorting is possible, loses and adds nothing, and whatever time is looked at, the samples before
that time are those that come first. -/
theorem C98_sorted (t : Trace) (exe : Option String) (pid : Nat) :
    (∃ out, t.SamplesSorted exe pid out) ∧
      ∀ out, t.SamplesSorted exe pid out → ∀ time, ∃ early late, out = early ++ late ∧
        early.Perm ((t.samplesCloned exe pid).filter fun s => decide (s.timestamp < time)) ∧
        late.Perm ((t.samplesCloned exe pid).filter fun s => !decide (s.timestamp < time)) := by
  refine ⟨⟨(t.samplesCloned exe pid).mergeSort fun a b => decide (a.timestamp ≤ b.timestamp),
    List.mergeSort_perm _ _, ?_⟩, fun out h time => ⟨_, _, split_sorted out time h.2, h.1.filter _, h.1.filter _⟩⟩
  exact (List.pairwise_mergeSort (le := fun a b : Sample => decide (a.timestamp ≤ b.timestamp))
    (fun a b c hab hbc => by simp only [decide_eq_true_eq] at *; omega)
    (fun a b => by simp only [Bool.or_eq_true, decide_eq_true_eq]; omega) _).imp fun h => by simpa using h

/-- **C98** (sorting): samples with different times come out in one order only. -/
theorem C98_sorted_once (t : Trace) (exe : Option String) (pid : Nat) {a b : List Sample}
    (hd : ∀ x ∈ t.samplesCloned exe pid, ∀ y ∈ t.samplesCloned exe pid, x.timestamp = y.timestamp → x = y)
    (ha : t.SamplesSorted exe pid a) (hb : t.SamplesSorted exe pid b) : a = b := by
  refine (ha.1.trans hb.1.symm).eq_of_pairwise (le := fun x y : Sample => x.timestamp ≤ y.timestamp) ?_ ha.2 hb.2
  intro x y hx hy hxy hyx
  exact hd x (ha.1.mem_iff.mp hx) y (hb.1.mem_iff.mp hy) (Nat.le_antisymm hxy hyx)

/-- Non-vacuity: two samples and the name of their thread, at three times. -/
example : (∀ x ∈ (⟨true, ⟨[instant (demoHere 5000) demoSubject, instant (demoHere 6000) demoSubject], 10⟩⟩ : Trace).samplesCloned none 1,
    ∀ y ∈ (⟨true, ⟨[instant (demoHere 5000) demoSubject, instant (demoHere 6000) demoSubject], 10⟩⟩ : Trace).samplesCloned none 1,
      x.timestamp = y.timestamp → x = y) ∧
    ((⟨true, ⟨[instant (demoHere 5000) demoSubject, instant (demoHere 6000) demoSubject], 10⟩⟩ : Trace).samplesCloned none 1).length = 3 := by
  decide

/-- The store of a block that begins and ends within one microsecond. -/
def demoShort : Trace :=
  ⟨true, ⟨[marker (demoHere 5000) demoSubject .durationBegin, endOf (marker (demoHere 5000) demoSubject .durationBegin) 5900],
    10⟩⟩

/-- A block that begins and ends within one microsecond may end before it begins once the samples are sorted: the order
looks at times only, and the sort is not stable. -/
theorem C98_sorted_blocks_refuted :
    ∃ x y : Sample, demoShort.samples.storage = [x, y] ∧ x.eventType = .durationBegin ∧ y.eventType = .durationEnd ∧
      ∃ names, demoShort.SamplesSorted none 1 (names ++ [y, x]) := by
  refine ⟨_, _, rfl, rfl, rfl, [metadata 5 1 "thread_name" "main" 7], ?_, ?_⟩
  · exact List.Perm.cons _ (List.Perm.swap _ _ _)
  · decide

/-- The store of a thread that changes its name. -/
def demoRenamed : Trace :=
  ⟨true, ⟨[instant ⟨5000, 7, 1, some "old"⟩ demoSubject, instant ⟨6000, 7, 1, some "new"⟩ demoSubject], 10⟩⟩

/-- All samples of metadata have the same time, so the names of a thread may be out of turn once they are sorted. -/
theorem C98_sorted_names_refuted :
    runs (namesOf 7 demoRenamed.samples.storage) = ["old", "new"] ∧
      ∃ out, demoRenamed.SamplesSorted none 1 out ∧ givenTo 7 out = ["new", "old"] := by
  refine ⟨by decide, [metadata 5 1 "thread_name" "new" 7, metadata 5 1 "thread_name" "old" 7] ++ demoRenamed.samples.storage,
    ⟨?_, ?_⟩, by decide⟩
  · exact List.Perm.swap _ _ _
  · decide

/-- **C98** (saving): the tracer of the program saves its own samples, and never over a file. -/
theorem C98_save (t : Trace) (exe : Option String) (pid : Nat) :
    t.save t exe pid false = some (t.samplesCloned exe pid) ∧ t.save t exe pid true = none := ⟨rfl, rfl⟩

/-- Another tracer does not save its own samples. -/
theorem C98_save_refuted : ∃ t all : Trace, t.save all none 1 false ≠ some (t.samplesCloned none 1) := by
  refine ⟨⟨true, ⟨[marker (demoHere 1000) demoSubject .durationBegin], 10⟩⟩, .disabled, ?_⟩
  simp [Trace.save, Trace.samplesCloned, Trace.disabled, FixedLifoDeque.withLimit]

/-- **C98** (samples): a sample that comes back from the wire equals the one that was sent, as the program compares
samples. -/
theorem C98_equal (s : Sample) (hc : ∀ cs, s.categories = some cs → cs ≠ [] ∧ ∀ c ∈ cs, ',' ∉ c)
    (ha : ∀ a i, s.args = some a → a.sortIndex = some i → -(2 ^ 31) ≤ i ∧ i < 2 ^ 31) :
    ∃ s', Wire.sampleOf (Wire.sampleJson s) = some (some s') ∧ same s' s = true := by
  refine ⟨_, Wire.C97_sample_partial s hc ha, ?_⟩
  simp [same]

end Tracer

end Xi
