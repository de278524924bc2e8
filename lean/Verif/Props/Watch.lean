import Verif.Spec.Watch

/-!
# Properties of the watcher of files (C89)
-/

namespace Xi

namespace Watch

theorem isPrefixOf_iff (p q : Path) : p.isPrefixOf q = true ↔ Under p q := by
  rw [List.isPrefixOf_iff_prefix]
  exact ⟨fun ⟨t, h⟩ => ⟨t, h.symm⟩, fun ⟨t, h⟩ => ⟨t, h.symm⟩⟩

theorem parent_iff (p q : Path) : (Path.parent q == some p) = true ↔ ∃ name, q = p ++ [name] := by
  unfold Path.parent
  rcases List.eq_nil_or_concat q with rfl | ⟨a, x, rfl⟩
  · simp
  · simp only [List.concat_eq_append]
    simp

theorem appliesToPath_iff (w : Watchee) (q : Path) : w.appliesToPath q = true ↔ Concerns w q := by
  unfold Watchee.appliesToPath Concerns
  have h1 := isPrefixOf_iff w.path q
  have h2 := parent_iff w.path q
  by_cases hp : w.path.isPrefixOf q = true
  · simp only [hp, if_true, Bool.and_eq_true, Bool.or_eq_true, h2, beq_iff_eq]
    have := h1.1 hp
    constructor
    · rintro ⟨(h | h) | h, hf⟩
      · exact ⟨hf, Or.inr (Or.inr ⟨h, this⟩)⟩
      · exact ⟨hf, Or.inl h.symm⟩
      · exact ⟨hf, Or.inr (Or.inl h)⟩
    · rintro ⟨hf, h | h | h⟩
      · exact ⟨Or.inl (Or.inr h.symm), hf⟩
      · exact ⟨Or.inr h, hf⟩
      · exact ⟨Or.inl (Or.inl h.1), hf⟩
  · simp only [hp]
    constructor
    · simp
    · rintro ⟨_, h⟩
      exfalso
      apply hp
      rw [h1]
      rcases h with h | ⟨n, h⟩ | ⟨_, h⟩
      · exact ⟨[], by simp [h]⟩
      · exact ⟨[n], h⟩
      · exact h

theorem wantsEvent_iff (w : Watchee) (event : Event) : w.wantsEvent event = true ↔ Wants w event := by
  obtain ⟨k, ps⟩ := event
  unfold Watchee.wantsEvent Wants
  have one : ∀ ps : List Path, (match ps with | [p] => w.appliesToPath p | _ => false) = true ↔ ∃ p, ps = [p] ∧ Concerns w p := by
    intro ps
    match ps with
    | [] => simp
    | [p] => simp [appliesToPath_iff]
    | _ :: _ :: _ => simp
  have two : ∀ ps : List Path, (match ps with | [p, q] => w.appliesToPath p || w.appliesToPath q | _ => false) = true ↔
      ∃ p q, ps = [p, q] ∧ (Concerns w p ∨ Concerns w q) := by
    intro ps
    match ps with
    | [] => simp
    | [_] => simp
    | [p, q] =>
      simp only [Bool.or_eq_true, appliesToPath_iff]
      constructor
      · intro h; exact ⟨p, q, rfl, h⟩
      · rintro ⟨_, _, h, h'⟩; cases h; exact h'
    | _ :: _ :: _ :: _ => simp
  cases k
  all_goals simp
  · exact one ps
  · exact one ps
  · exact one ps
  · exact one ps
  · exact two ps

/-! ### What the crate watches -/

/-- Everything anybody watches is watched by the crate, in the right mode. -/
structure Covered (mode : Path → Bool) (ws : List Watchee) (r : Registry) : Prop where
  modes : ∀ x ∈ r, x.2 = mode x.1
  here : ∀ w ∈ ws, (w.path, w.recursive) ∈ r
  mode : ∀ w ∈ ws, w.recursive = mode w.path

theorem Registry.mem_watch {r : Registry} {p : Path} {m : Bool} {x : Path × Bool} : x ∈ r.watch p m ↔ (x ∈ r ∧ x.1 ≠ p) ∨ x = (p, m) := by
  unfold Registry.watch
  simp

/-- Watching again what is needed below a path. -/
theorem rewatch {mode : Path → Bool} : ∀ (ws : List Watchee) (r : Registry), (∀ x ∈ r, x.2 = mode x.1) → (∀ w ∈ ws, w.recursive = mode w.path) →
    (∀ x ∈ ws.foldl (fun r w => r.watch w.path w.recursive) r, x.2 = mode x.1) ∧
    (∀ x ∈ r, x ∈ ws.foldl (fun r w => r.watch w.path w.recursive) r) ∧
    (∀ w ∈ ws, (w.path, w.recursive) ∈ ws.foldl (fun r w => r.watch w.path w.recursive) r) := by
  intro ws
  induction ws with
  | nil => intro r h _; exact ⟨h, fun _ h => h, by simp⟩
  | cons w ws ih =>
    intro r h hm
    have hw := hm w (by simp)
    obtain ⟨h1, h2, h3⟩ := ih (r.watch w.path w.recursive) (by
      intro x hx
      rcases Registry.mem_watch.1 hx with hx | hx
      · exact h x hx.1
      · subst hx; exact hw) (fun w' hw' => hm w' (by simp [hw']))
    refine ⟨h1, fun x hx => h2 x ?_, ?_⟩
    · rw [Registry.mem_watch]
      by_cases he : x.1 = w.path
      · right
        have := h x hx
        rw [he, ← hw] at this
        exact Prod.ext he this
      · exact Or.inl ⟨hx, he⟩
    · intro w' hw'
      rcases List.mem_cons.1 hw' with rfl | hw'
      · exact h2 _ (Registry.mem_watch.2 (Or.inr rfl))
      · exact h3 w' hw'

theorem Covered.watch {mode : Path → Bool} {f : FileWatcher} (h : Covered mode f.watchees f.inner) {canon : Path → Option Path} {path : Path} {rec : Bool} {token : Nat}
    {filter : Path → Bool} (hm : ∀ p, canon path = some p → rec = mode p) :
    Covered mode (f.watch canon path rec token filter).watchees (f.watch canon path rec token filter).inner := by
  unfold FileWatcher.watch
  cases hc : canon path with
  | none => exact h
  | some p =>
    have hp := hm p hc
    subst hp
    simp only
    by_cases ha : f.watchees.any (fun w => p == w.path) = true
    · simp only [ha, Bool.not_true, Bool.false_eq_true, if_false]
      rw [List.any_eq_true] at ha
      obtain ⟨w, hw, he⟩ := ha
      have he : p = w.path := by simpa using he
      refine ⟨h.modes, ?_, ?_⟩
      · intro w' hw'
        rcases List.mem_append.1 hw' with hw' | hw'
        · exact h.here w' hw'
        · rw [List.mem_singleton] at hw'
          subst hw'
          have := h.here w hw
          rw [h.mode w hw, ← he] at this
          exact this
      · intro w' hw'
        rcases List.mem_append.1 hw' with hw' | hw'
        · exact h.mode w' hw'
        · rw [List.mem_singleton] at hw'; subst hw'; rfl
    · have ha : f.watchees.any (fun w => p == w.path) = false := by simpa using ha
      simp only [ha, Bool.not_false, if_true]
      rw [List.any_eq_false] at ha
      refine ⟨?_, ?_, ?_⟩
      · intro x hx
        rcases Registry.mem_watch.1 hx with hx | hx
        · exact h.modes x hx.1
        · subst hx; rfl
      · intro w' hw'
        rw [Registry.mem_watch]
        rcases List.mem_append.1 hw' with hw' | hw'
        · left
          exact ⟨h.here w' hw', fun he => ha w' hw' (by simp [← he])⟩
        · rw [List.mem_singleton] at hw'; subst hw'; exact Or.inr rfl
      · intro w' hw'
        rcases List.mem_append.1 hw' with hw' | hw'
        · exact h.mode w' hw'
        · rw [List.mem_singleton] at hw'; subst hw'; rfl

theorem Covered.unwatch {mode : Path → Bool} {f : FileWatcher} (h : Covered mode f.watchees f.inner) (path : Path) (token : Nat) :
    Covered mode (f.unwatch path token).watchees (f.unwatch path token).inner := by
  unfold FileWatcher.unwatch
  cases hf : f.watchees.find? (fun w => w.token == token && w.path == path) with
  | none => exact h
  | some rm =>
    simp only
    have hrm := List.mem_of_find?_eq_some hf
    generalize hws : f.watchees.eraseP (fun w => w.token == token && w.path == path) = ws
    have hsub : ∀ w ∈ ws, w ∈ f.watchees := by intro w hw; rw [← hws] at hw; exact List.mem_of_mem_eraseP hw
    have hrmm := h.mode rm hrm
    have hmode : ∀ w ∈ ws, w.recursive = mode w.path := fun w hw => h.mode w (hsub w hw)
    generalize hin : (if !ws.any (fun w => w.path == rm.path) then f.inner.unwatch rm.path else f.inner) = r
    have hrm' : ∀ x ∈ r, x.2 = mode x.1 := by
      intro x hx
      rw [← hin] at hx
      split at hx
      · unfold Registry.unwatch at hx
        split at hx
        · exact h.modes x (List.mem_filter.1 hx).1
        · exact h.modes x (List.mem_filter.1 hx).1
      · exact h.modes x hx
    have hold : ∀ w ∈ ws, (rm.recursive = true → rm.path.isPrefixOf w.path = false) → (w.path, w.recursive) ∈ r := by
      intro w hw hn
      rw [← hin]
      split
      · rename_i hany
        have hany : ws.any (fun w => w.path == rm.path) = false := by simpa using hany
        rw [List.any_eq_false] at hany
        have hne : w.path ≠ rm.path := by simpa using hany w hw
        unfold Registry.unwatch
        split
        · rename_i hc
          have hc : (rm.path, true) ∈ f.inner := by simpa using hc
          have := h.modes _ hc
          simp only at this
          rw [List.mem_filter]
          refine ⟨h.here w (hsub w hw), ?_⟩
          rw [hn (by rw [hrmm, ← this])]
          rfl
        · rw [List.mem_filter]
          exact ⟨h.here w (hsub w hw), by simpa using hne⟩
      · exact h.here w (hsub w hw)
    by_cases hr : rm.recursive = true
    · rw [if_pos hr]
      obtain ⟨h1, h2, h3⟩ := rewatch (mode := mode) (ws.filter (fun w => rm.path.isPrefixOf w.path)) r hrm'
        (fun w hw => hmode w (List.mem_filter.1 hw).1)
      refine ⟨h1, ?_, hmode⟩
      intro w hw
      by_cases hp : rm.path.isPrefixOf w.path = true
      · exact h3 w (List.mem_filter.2 ⟨hw, hp⟩)
      · exact h2 _ (hold w hw (fun _ => Bool.eq_false_iff.2 hp))
    · rw [if_neg hr]
      exact ⟨hrm', fun w hw => hold w hw (fun h => absurd h hr), hmode⟩

/-- What anybody wants to know is noticed. -/
theorem Covered.covers {mode : Path → Bool} {ws : List Watchee} {r : Registry} (h : Covered mode ws r) {w : Watchee} (hw : w ∈ ws) {q : Path} (hq : Concerns w q) :
    r.covers q = true := by
  unfold Registry.covers
  rw [List.any_eq_true]
  refine ⟨_, h.here w hw, ?_⟩
  rcases hq.2 with h | h | ⟨h1, h2⟩
  · simp [h]
  · simp only [(parent_iff w.path q).2 h]; simp
  · simp only [h1, (isPrefixOf_iff w.path q).2 h2]; simp

/-! ### C89 -/

theorem watchees_unwatch (f : FileWatcher) (path : Path) (token : Nat) :
    (f.unwatch path token).watchees = f.watchees.eraseP (fun w => w.token == token && w.path == path) := by
  unfold FileWatcher.unwatch
  cases hf : f.watchees.find? (fun w => w.token == token && w.path == path) with
  | none =>
    simp only
    rw [List.eraseP_of_forall_not]
    simpa [List.find?_eq_none] using hf
  | some _ => rfl

theorem watchees_watch (canon : Path → Option Path) (f : FileWatcher) (path : Path) (rec : Bool) (token : Nat) (filter : Path → Bool) :
    (f.watch canon path rec token filter).watchees = watches canon f.watchees (.watch path rec token filter) := by
  unfold FileWatcher.watch
  simp only [watches]
  cases canon path <;> rfl

theorem watchees_step {canon : Path → Option Path} (f : FileWatcher) {op : Op} (hc : Canonical canon op) :
    (f.step canon op).1.watchees = watches canon f.watchees op := by
  cases op with
  | watch path rec token filter => exact watchees_watch _ _ _ _ _ _
  | unwatch path token =>
    show (f.unwatch path token).watchees = _
    rw [watchees_unwatch]
    unfold watches
    congr 1
    funext w
    rw [show canon path = some path from hc]
    rfl
  | change event =>
    simp only [FileWatcher.step, watches]
    split
    · unfold FileWatcher.report; split <;> rfl
    · rfl
  | fault =>
    simp only [FileWatcher.step, watches]
    unfold FileWatcher.report; split <;> rfl
  | take => rfl

theorem events_watch (canon : Path → Option Path) (f : FileWatcher) (path : Path) (rec : Bool) (token : Nat) (filter : Path → Bool) :
    (f.watch canon path rec token filter).events = f.events ∧ (f.watch canon path rec token filter).idle = f.idle ∧
      (f.watch canon path rec token filter).running = f.running := by
  unfold FileWatcher.watch
  cases canon path <;> exact ⟨rfl, rfl, rfl⟩

theorem events_unwatch (f : FileWatcher) (path : Path) (token : Nat) :
    (f.unwatch path token).events = f.events ∧ (f.unwatch path token).idle = f.idle ∧ (f.unwatch path token).running = f.running := by
  unfold FileWatcher.unwatch
  cases f.watchees.find? (fun w => w.token == token && w.path == path) <;> exact ⟨rfl, rfl, rfl⟩

open Classical in
theorem filter_wants (ws : List Watchee) (event : Event) :
    ws.filter (fun w => w.wantsEvent event) = ws.filter (fun w => decide (Wants w event)) := by
  apply List.filter_congr
  intro w _
  rw [Bool.eq_iff_iff, wantsEvent_iff]
  simp

theorem delivery {canon : Path → Option Path} {mode : Path → Bool} : ∀ (ops : List Op) (f : FileWatcher), Covered mode f.watchees f.inner → f.running = true →
    (f.events ≠ [] → f.idle = true) →
    (∀ op ∈ ops, Canonical canon op ∧ OneMode canon mode op ∧ op.NoFault) →
    (f.run canon ops).2 ++ (f.run canon ops).1.events = f.events ++ due canon f.watchees ops ∧
      ((f.run canon ops).1.events ≠ [] → (f.run canon ops).1.idle = true) := by
  intro ops
  induction ops with
  | nil => intro f _ _ hi _; simpa [FileWatcher.run, due] using hi
  | cons op ops ih =>
    intro f hcov hrun hidle hops
    obtain ⟨ho1, ho2, ho3⟩ := hops op (by simp)
    have hw := watchees_step f ho1
    have key : Covered mode (f.step canon op).1.watchees (f.step canon op).1.inner ∧ (f.step canon op).1.running = true ∧
        ((f.step canon op).1.events ≠ [] → (f.step canon op).1.idle = true) ∧
        (f.step canon op).2 ++ (f.step canon op).1.events = f.events ++ told f.watchees op := by
      cases op with
      | watch path rec token filter =>
        obtain ⟨e1, e2, e3⟩ := events_watch canon f path rec token filter
        exact ⟨hcov.watch ho2, by simpa [FileWatcher.step, e3] using hrun, by simpa [FileWatcher.step, e1, e2] using hidle, by simp [FileWatcher.step, told, e1]⟩
      | unwatch path token =>
        obtain ⟨e1, e2, e3⟩ := events_unwatch f path token
        exact ⟨hcov.unwatch path token, by simpa [FileWatcher.step, e3] using hrun, by simpa [FileWatcher.step, e1, e2] using hidle, by simp [FileWatcher.step, told, e1]⟩
      | change event =>
        simp only [FileWatcher.step]
        split
        · simp only [FileWatcher.report, hrun, if_true, filter_wants]
          exact ⟨hcov, trivial, fun _ => trivial, rfl⟩
        · rename_i hn
          refine ⟨hcov, hrun, hidle, ?_⟩
          have : f.watchees.filter (fun w => @decide (Wants w event) (Classical.propDecidable _)) = [] := by
            rw [List.filter_eq_nil_iff]
            intro w hw' hwant
            apply hn
            have hwant : Wants w event := by simpa using hwant
            rw [List.any_eq_true]
            rcases hwant with ⟨_, _, p, h1, h2⟩ | ⟨_, p, q, h1, h2 | h2⟩
            · exact ⟨p, by simp [h1], hcov.covers hw' h2⟩
            · exact ⟨p, by simp [h1], hcov.covers hw' h2⟩
            · exact ⟨q, by simp [h1], hcov.covers hw' h2⟩
          simp [told, this]
      | fault => exact ho3.elim
      | take =>
        simp only [FileWatcher.step, FileWatcher.takeEvents]
        exact ⟨hcov, hrun, by simp, by simp [told]⟩
    obtain ⟨k1, k2, k3, k4⟩ := key
    obtain ⟨i1, i2⟩ := ih (f.step canon op).1 k1 k2 k3 (fun op' h => hops op' (by simp [h]))
    refine ⟨?_, i2⟩
    simp only [FileWatcher.run, due]
    rw [List.append_assoc, i1, ← List.append_assoc, k4, hw, List.append_assoc]

/-- **C89, what holds.** Whoever watches a path is told of every change that concerns it, once for each watch, in the order of the changes, and
nobody is told of anything else; what has not been handed out yet is waiting for the idle task, which has been asked for.
This is so for every sequence of watches, changes and idle tasks, if all watches of one path are recursive or none is, if watches are ended under the real names
of their paths, and if the crate reports no errors. -/
theorem C89_delivery_partial (canon : Path → Option Path) (mode : Path → Bool) (ops : List Op)
    (h : ∀ op ∈ ops, Canonical canon op ∧ OneMode canon mode op ∧ op.NoFault) {f : FileWatcher} {out : List (Nat × Event)}
    (hr : FileWatcher.run canon {} ops = (f, out)) :
    out ++ f.events = due canon [] ops ∧ (f.events ≠ [] → f.idle = true) := by
  have := delivery (canon := canon) (mode := mode) ops {} ⟨by simp, by simp, by simp⟩ rfl (by simp) h
  rw [hr] at this
  simpa using this

theorem only {canon : Path → Option Path} : ∀ (ops : List Op) (f : FileWatcher), (∀ op ∈ ops, Canonical canon op) →
    ((f.run canon ops).2 ++ (f.run canon ops).1.events).Sublist (f.events ++ due canon f.watchees ops) := by
  intro ops
  induction ops with
  | nil => intro f _; simp [FileWatcher.run, due]
  | cons op ops ih =>
    intro f hops
    have hw := watchees_step f (hops op (by simp))
    have key : ((f.step canon op).2 ++ (f.step canon op).1.events).Sublist (f.events ++ told f.watchees op) := by
      cases op with
      | watch path rec token filter => simp [told, FileWatcher.step, (events_watch canon f path rec token filter).1]
      | unwatch path token => simp [told, FileWatcher.step, (events_unwatch f path token).1]
      | change event =>
        simp only [FileWatcher.step]
        split
        · unfold FileWatcher.report
          split
          · simp [told, filter_wants]
          · simp
        · simp
      | fault =>
        simp only [FileWatcher.step, FileWatcher.report]
        split <;> simp [told]
      | take => simp [told, FileWatcher.step, FileWatcher.takeEvents]
    have hi := ih (f.step canon op).1 (fun op' h => hops op' (by simp [h]))
    simp only [FileWatcher.run, due]
    rw [List.append_assoc]
    refine (List.Sublist.append_left hi _).trans ?_
    rw [← List.append_assoc, ← List.append_assoc, hw]
    exact List.Sublist.append_right key _

/-- **C89.** Without the last two assumptions still nobody is told of anything that does not concern them, nor twice, nor in another order. -/
theorem C89_only_partial (canon : Path → Option Path) (ops : List Op) (h : ∀ op ∈ ops, Canonical canon op) {f : FileWatcher} {out : List (Nat × Event)}
    (hr : FileWatcher.run canon {} ops = (f, out)) : (out ++ f.events).Sublist (due canon [] ops) := by
  have := only (canon := canon) ops {} h
  rw [hr] at this
  simpa using this

/-- A directory is watched with all that is in it, and a file in it is watched too.  Then the directory is no longer watched.
Both are told of the first change, and who watches the file of the second (the test `recurse_with_contained`, watcher.rs:478-509). -/
def exOps : List Op :=
  [.watch ["a"] true 1 (fun _ => true), .watch ["a", "b", "f"] false 2 (fun _ => true), .change ⟨.modify, [["a", "b", "f"]]⟩,
   .change ⟨.create, [["a", "c"]]⟩, .unwatch ["a"] 1, .take, .change ⟨.modify, [["a", "b", "f"]]⟩, .change ⟨.create, [["a", "c"]]⟩]

example : (∀ op ∈ exOps, Canonical some op ∧ OneMode some (fun p => p == ["a"]) op ∧ op.NoFault) ∧
    (FileWatcher.run some {} exOps).2 = [(1, ⟨.modify, [["a", "b", "f"]]⟩), (2, ⟨.modify, [["a", "b", "f"]]⟩), (1, ⟨.create, [["a", "c"]]⟩)] ∧
    (FileWatcher.run some {} exOps).1.events = [(2, ⟨.modify, [["a", "b", "f"]]⟩)] := by
  refine ⟨?_, by decide +kernel, by decide +kernel⟩
  intro op hop
  simp only [exOps, List.mem_cons, List.not_mem_nil, or_false] at hop
  rcases hop with rfl | rfl | rfl | rfl | rfl | rfl | rfl | rfl <;> simp [Canonical, OneMode, Op.NoFault]

/-- **C89, refuted (i).** A path that is watched first without and then with everything below it: the crate is not told (watcher.rs:162), and
the second watch does not get what happens below. -/
theorem C89_mode_refuted :
    let ops := [.watch ["a"] false 1 (fun _ => true), .watch ["a"] true 2 (fun _ => true), .change ⟨.modify, [["a", "b", "f"]]⟩, .take]
    (FileWatcher.run some {} ops).2 = [] ∧ due some [] ops = [(2, ⟨.modify, [["a", "b", "f"]]⟩)] := by
  refine ⟨by decide +kernel, ?_⟩
  simp only [due, told, watches, ← filter_wants]
  decide +kernel

/-- **C89, refuted (ii).** A file that was opened by the name of a link is watched by its real name, but no longer watching it is asked for by the name of the link
(file.rs:127), and has no effect: who watched is still told. -/
theorem C89_link_refuted :
    let canon : Path → Option Path := fun p => if p = ["link"] then some ["file"] else some p
    let ops := [.watch ["link"] false 2 (fun _ => true), .unwatch ["link"] 2, .change ⟨.modify, [["file"]]⟩, .take]
    (FileWatcher.run canon {} ops).2 = [(2, ⟨.modify, [["file"]]⟩)] ∧ due canon [] ops = [] := by
  refine ⟨by decide +kernel, ?_⟩
  simp only [due, told, watches, ← filter_wants]
  decide +kernel

/-- **C89, refuted (iii).** After one error of the crate nobody is ever told of anything: the thread ends (watcher.rs:103). -/
theorem C89_fault_refuted (canon : Path → Option Path) (ops : List Op) :
    (FileWatcher.run canon {} (.fault :: ops)).2 = [] ∧ (FileWatcher.run canon {} (.fault :: ops)).1.events = [] := by
  have key : ∀ (ops : List Op) (f : FileWatcher), f.running = false → f.events = [] →
      (f.run canon ops).2 = [] ∧ (f.run canon ops).1.events = [] := by
    intro ops
    induction ops with
    | nil => intro f _ h; exact ⟨rfl, h⟩
    | cons op ops ih =>
      intro f hr he
      have : (f.step canon op).1.running = false ∧ (f.step canon op).1.events = [] ∧ (f.step canon op).2 = [] := by
        cases op with
        | watch path rec token filter =>
          obtain ⟨e1, _, e3⟩ := events_watch canon f path rec token filter
          exact ⟨by simpa [FileWatcher.step, e3] using hr, by simpa [FileWatcher.step, e1] using he, rfl⟩
        | unwatch path token =>
          obtain ⟨e1, _, e3⟩ := events_unwatch f path token
          exact ⟨by simpa [FileWatcher.step, e3] using hr, by simpa [FileWatcher.step, e1] using he, rfl⟩
        | change event =>
          simp only [FileWatcher.step, FileWatcher.report, hr]
          simp [hr, he]
        | fault => simp [FileWatcher.step, FileWatcher.report, hr, he]
        | take => simp [FileWatcher.step, FileWatcher.takeEvents, hr, he]
      obtain ⟨h1, h2, h3⟩ := this
      obtain ⟨i1, i2⟩ := ih _ h1 h2
      exact ⟨by simp [FileWatcher.run, h3, i1], i2⟩
  exact key ops _ rfl rfl

example : due some [] [.fault, .watch ["a"] false 1 (fun _ => true), .change ⟨.modify, [["a"]]⟩] = [(1, ⟨.modify, [["a"]]⟩)] := by
  simp only [due, told, watches, ← filter_wants]
  decide +kernel

/-- **C89, refuted (iv).** Events are not delivered once per token, as the documentation of the module says (watcher.rs:26-29), but once per watch. -/
theorem C89_once_refuted :
    (FileWatcher.run some {} [.watch ["a"] false 2 (fun _ => true), .watch ["a"] false 2 (fun _ => true), .change ⟨.modify, [["a"]]⟩, .take]).2 =
      [(2, ⟨.modify, [["a"]]⟩), (2, ⟨.modify, [["a"]]⟩)] := by decide +kernel

end Watch

end Xi
