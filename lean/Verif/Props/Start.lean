import Verif.Core.Start

/-!
# C99: the core starts once, and serves what comes after that
-/

namespace Xi

namespace Start

variable {σ κ ν ρ π α : Type}

/-- What is for the state of the core: one message after the other, until something panics. -/
def serve (i : Inner σ κ ν ρ π α) : σ → List (Message κ ν ρ π) → Option (σ × List (Answer α))
  | s, [] => some (s, [])
  | s, .notification n :: ms => do serve i (← i.notification s n) ms
  | s, .request r :: ms => do
    let (s, a) ← i.request s r
    let (s, as) ← serve i s ms
    return (s, .front a :: as)
  | s, .idle t :: ms => do serve i (← i.idle s t) ms
  | s, .plugin m :: ms => do
    let (s, a) ← i.plugin s m
    let (s, as) ← serve i s ms
    return (s, .plugin a :: as)

/-- The last word on tracing. -/
def tracingAfter (b : Bool) (ms : List (Message κ ν ρ π)) : Bool :=
  ms.foldl (fun b m => match m with | .notification (.tracingConfig e) => e | _ => b) b

/-- A message about tracing. -/
def IsTracing (m : Message κ ν ρ π) : Prop := ∃ e, m = .notification (.tracingConfig e)

/-- A message that starts the core. -/
def IsStart (m : Message κ ν ρ π) : Prop := ∃ d, m = .notification (.clientStarted d)

/-- A message of a plugin. -/
def IsPlugin (m : Message κ ν ρ π) : Prop := ∃ x, m = .plugin x

theorem run_cons (i : Inner σ κ ν ρ π α) (p : Process σ) (m : Message κ ν ρ π) (ms : List (Message κ ν ρ π)) :
    p.run i (m :: ms) = (p.handle i m).bind fun x => (x.1.run i ms).bind fun y => some (y.1, x.2.toList ++ y.2) := rfl

theorem run_append (i : Inner σ κ ν ρ π α) (p : Process σ) (a b : List (Message κ ν ρ π)) :
    p.run i (a ++ b) = (p.run i a).bind fun x => (x.1.run i b).bind fun y => some (y.1, x.2 ++ y.2) := by
  induction a generalizing p with
  | nil =>
    simp only [List.nil_append, Process.run, Option.bind_some]
    cases p.run i b <;> rfl
  | cons m a ih =>
    simp only [List.cons_append, run_cons]
    cases p.handle i m with
    | none => rfl
    | some x =>
      simp only [Option.bind_some, ih]
      cases x.1.run i a with
      | none => rfl
      | some y =>
        simp only [Option.bind_some]
        cases y.1.run i b with
        | none => rfl
        | some z => simp [List.append_assoc]

/-- Once the core runs, messages are served by its state, unless something panics. -/
theorem run_running (i : Inner σ κ ν ρ π α) (ms : List (Message κ ν ρ π)) (hs : ∀ m ∈ ms, ¬ IsStart m) (s : σ) (b : Bool)
    (s' : σ) (as : List (Answer α)) (h : serve i s ms = some (s', as)) :
    Process.run i ⟨.running (some s), b⟩ ms = some (⟨.running (some s'), tracingAfter b ms⟩, as) := by
  induction ms generalizing s b as with
  | nil =>
    simp only [serve, Option.some.injEq, Prod.mk.injEq] at h
    obtain ⟨rfl, rfl⟩ := h
    rfl
  | cons m ms ih =>
    have hms : ∀ m ∈ ms, ¬ IsStart m := fun x hx => hs x (by simp [hx])
    rw [run_cons]
    cases m with
    | notification n =>
      simp only [serve, Option.bind_eq_bind, Option.bind_eq_some_iff] at h
      obtain ⟨t, ht, h⟩ := h
      cases n with
      | tracingConfig e =>
        simp only [Process.handle, Process.notify, XiCore.withInner, ht, Option.map_some, Option.bind_some, ih hms t e as h]
        rfl
      | clientStarted d => exact absurd ⟨d, rfl⟩ (hs _ (by simp))
      | other n =>
        simp only [Process.handle, Process.notify, XiCore.withInner, ht, Option.map_some, Option.bind_some, ih hms t b as h]
        rfl
    | request r =>
      simp only [serve, Option.bind_eq_bind, Option.bind_eq_some_iff] at h
      obtain ⟨t, ht, u, hu, h⟩ := h
      simp only [Option.pure_def, Option.some.injEq, Prod.mk.injEq] at h
      obtain ⟨rfl, rfl⟩ := h
      simp only [Process.handle, ht, Option.map_some, Option.bind_some, ih hms t.1 b u.2 hu]
      rfl
    | idle t =>
      simp only [serve, Option.bind_eq_bind, Option.bind_eq_some_iff] at h
      obtain ⟨u, hu, h⟩ := h
      simp only [Process.handle, XiCore.withInner, hu, Option.map_some, Option.bind_some, ih hms u b as h]
      rfl
    | plugin m =>
      simp only [serve, Option.bind_eq_bind, Option.bind_eq_some_iff] at h
      obtain ⟨t, ht, u, hu, h⟩ := h
      simp only [Option.pure_def, Option.some.injEq, Prod.mk.injEq] at h
      obtain ⟨rfl, rfl⟩ := h
      simp only [Process.handle, ht, Option.bind_some, ih hms t.1 b u.2 hu]
      rfl

theorem run_tracing (i : Inner σ κ ν ρ π α) (ms : List (Message κ ν ρ π)) (ht : ∀ m ∈ ms, IsTracing m) (b : Bool) :
    Process.run i ⟨.waiting, b⟩ ms = some (⟨.waiting, tracingAfter b ms⟩, []) := by
  induction ms generalizing b with
  | nil => rfl
  | cons m ms ih =>
    obtain ⟨e, rfl⟩ := ht m (by simp)
    rw [run_cons]
    simp only [Process.handle, Process.notify, Option.map_some, Option.bind_some, ih (fun x hx => ht x (by simp [hx])) e]
    rfl

/-- **C99** (the good case): messages about tracing, then the start, then anything but another start: the state that was
set up is given the start and all that follows, in order, and the answers are those of the state. -/
theorem C99_start_partial (i : Inner σ κ ν ρ π α) (before after : List (Message κ ν ρ π)) (d : κ)
    (hb : ∀ m ∈ before, IsTracing m) (ha : ∀ m ∈ after, ¬ IsStart m) (s0 s : σ) (as : List (Answer α))
    (h0 : i.finishSetup (i.new d) = some s0)
    (h : serve i s0 (.notification (.clientStarted d) :: after) = some (s, as)) :
    Process.run i .new (before ++ .notification (.clientStarted d) :: after) =
      some (⟨.running (some s), tracingAfter false (before ++ after)⟩, as) := by
  simp only [serve, Option.bind_eq_bind, Option.bind_eq_some_iff] at h
  obtain ⟨s1, h1, h⟩ := h
  rw [run_append, Process.new, run_tracing i before hb, Option.bind_some, run_cons]
  simp only [Process.handle, Process.notify, XiCore.withInner, h0, Option.map_some, Option.bind_eq_bind, Option.bind_some, h1,
    run_running i after ha s1 _ s as h, Option.pure_def]
  simp [tracingAfter, List.foldl_append]

/-- **C99** (nothing before the start): the process ends with the first message, other than about tracing, that comes from
the front end before the start. -/
theorem C99_early_refuted (i : Inner σ κ ν ρ π α) (before after : List (Message κ ν ρ π)) (m : Message κ ν ρ π)
    (hb : ∀ m ∈ before, IsTracing m) (h1 : ¬ IsTracing m) (h2 : ¬ IsStart m) (h3 : ¬ IsPlugin m) :
    Process.run i .new (before ++ m :: after) = none := by
  rw [run_append, Process.new, run_tracing i before hb, Option.bind_some, run_cons]
  cases m with
  | notification n =>
    cases n with
    | tracingConfig e => exact absurd ⟨e, rfl⟩ h1
    | clientStarted d => exact absurd ⟨d, rfl⟩ h2
    | other n => rfl
  | request r => rfl
  | idle t => rfl
  | plugin m => exact absurd ⟨m, rfl⟩ h3

/-- A second start ends the process. -/
theorem C99_again_refuted (i : Inner σ κ ν ρ π α) (c : Option σ) (b : Bool) (d : κ) (ms : List (Message κ ν ρ π)) :
    Process.run i ⟨.running c, b⟩ (.notification (.clientStarted d) :: ms) = none := by
  rw [run_cons]
  rfl

/-- **C99** (a panic in the thread of a plugin): from then on, plugins are not answered, and the next message of the front
end ends the process. -/
theorem C99_poison_refuted (i : Inner σ κ ν ρ π α) (s : σ) (b : Bool) (x : π) (hx : i.plugin s x = none)
    (ms : List (Message κ ν ρ π)) :
    Process.run i ⟨.running (some s), b⟩ (.plugin x :: ms) =
      if ms.all (fun m => match m with | .plugin _ => true | _ => false) then some (⟨.running none, b⟩, []) else none := by
  have gen : ∀ ms : List (Message κ ν ρ π), Process.run i ⟨.running none, b⟩ ms =
      if ms.all (fun m => match m with | .plugin _ => true | _ => false) then some (⟨.running none, b⟩, []) else none := by
    intro ms
    induction ms with
    | nil => rfl
    | cons m ms ih =>
      rw [run_cons]
      cases m with
      | notification n => cases n <;> rfl
      | request r => rfl
      | idle t => rfl
      | plugin m =>
        simp only [Process.handle, Option.bind_some, ih, List.all_cons, Bool.true_and]
        split <;> rfl
  rw [run_cons]
  simp only [Process.handle, hx, Option.bind_some, gen]
  split <;> rfl

/-- A core that counts messages, and panics at the message 0 of a plugin. -/
def counting : Inner Nat Unit Unit Unit Nat Nat where
  new _ := 0
  finishSetup s := some s
  notification s _ := some (s + 1)
  request s _ := some (s + 1, s)
  idle s _ := some s
  plugin s m := if m = 0 then none else some (s + 1, s)

example : Process.run counting .new [.notification (.tracingConfig true), .notification (.clientStarted ()), .request (),
    .plugin 3, .notification (.other ())] = some (⟨.running (some 4), true⟩, [.front 1, .plugin 2]) :=
  C99_start_partial counting [.notification (.tracingConfig true)] [.request (), .plugin 3, .notification (.other ())] ()
    (fun m hm => by simp only [List.mem_singleton] at hm; exact ⟨true, hm⟩)
    (fun m hm => by
      simp only [List.mem_cons, List.not_mem_nil, or_false] at hm
      rintro ⟨d, rfl⟩
      rcases hm with hm | hm | hm <;> cases hm)
    0 4 [.front 1, .plugin 2] rfl rfl

example : Process.run counting .new [.notification (.clientStarted ()), .plugin 0, .plugin 3, .request ()] = none := rfl

end Start

end Xi
