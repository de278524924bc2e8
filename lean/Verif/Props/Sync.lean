import Verif.Spec.Sync

/-!
# Synchronisation with the ledger (C109)
-/

namespace Xi

open Sync

namespace Sync

variable {E B : Type} {o : Ops E B} {knows : E → Nat → Prop}

/-- At most one transaction is on its way, and only if one is pending. -/
def OneWay (s : State E B) : Prop :=
  s.asked + (s.chan.countP isReady) ≤ 1 ∧ (0 < s.asked + s.chan.countP isReady → ∀ ed, s.editor = some ed → ed.store = some true)

theorem syncStateChanged_eq (ed : Editor E) : ∃ l st n, Editor.syncStateChanged o ed = ({ ed with lastSynced := l, store := st }, n) ∧
    ((st = ed.store ∧ n = 0) ∨ (ed.store = some false ∧ st = some true ∧ n = 1)) := by
  rw [Editor.syncStateChanged.eq_def]
  split
  · exact ⟨_, _, _, rfl, .inl ⟨rfl, rfl⟩⟩
  · rename_i pending h
    split
    · split
      · exact ⟨_, ed.store, _, rfl, .inl ⟨rfl, rfl⟩⟩
      · rename_i hp
        exact ⟨_, _, _, rfl, .inr ⟨by simpa [hp] using h, rfl, rfl⟩⟩
    · exact ⟨_, ed.store, _, rfl, .inl ⟨rfl, rfl⟩⟩

theorem commitDelta_eq (ed : Editor E) : ∃ r l st n, Editor.commitDelta o ed = ({ ed with lastRev := r, lastSynced := l, store := st }, n) ∧
    ((st = ed.store ∧ n = 0) ∨ (ed.store = some false ∧ st = some true ∧ n = 1)) := by
  rw [Editor.commitDelta]
  split
  · exact ⟨_, _, _, _, rfl, .inl ⟨rfl, rfl⟩⟩
  · obtain ⟨l, st, n, h, h'⟩ := syncStateChanged_eq (o := o) { ed with lastRev := o.head ed.engine }
    exact ⟨_, l, st, n, h, h'⟩

/-- After a merge nothing is asked of the ledger, and the store is as it was. -/
theorem mergeNewState_eq (ed : Editor E) (e : E) : ∃ r, Editor.mergeNewState o ed e =
    ({ ed with engine := o.merge ed.engine e, lastRev := r, lastSynced := o.head (o.merge ed.engine e) }, 0) := by
  simp only [Editor.mergeNewState, Editor.commitDelta]
  split
  · exact ⟨_, rfl⟩
  · rw [Editor.syncStateChanged.eq_def]
    simp only
    split
    · exact ⟨_, rfl⟩
    · exact ⟨o.head (o.merge ed.engine e), by simp [*]⟩

theorem step_oneWay {s : State E B} {a : Action B} (h : OneWay s) (ha : Attaches s a) : ∃ s', s.step o a = some s' ∧ OneWay s' := by
  obtain ⟨h1, h2⟩ := h
  cases a with
  | edit id =>
    simp only [State.step]
    split
    · exact ⟨_, rfl, h1, h2⟩
    · rename_i ed hed
      refine ⟨_, rfl, ?_⟩
      obtain ⟨r, l, st, n, hc, hst⟩ := commitDelta_eq (o := o) { ed with engine := o.edit ed.engine id }
      simp only [hc]
      rcases hst with ⟨hs, hn⟩ | ⟨hs, hs', hn⟩
      · simp only at hs
        subst hs hn
        refine ⟨by simpa using h1, ?_⟩
        simp only [Nat.add_zero, Option.some.injEq]
        rintro hp _ rfl
        exact h2 hp ed hed
      · simp only at hs
        subst hs' hn
        have : ¬ 0 < s.asked + s.chan.countP isReady := fun hp => by
          have := h2 hp ed hed
          rw [hs] at this
          cases this
        refine ⟨by simp only; omega, ?_⟩
        simp only [Option.some.injEq]
        rintro _ _ rfl
        rfl
  | attach =>
    simp only [State.step]
    split
    · exact ⟨_, rfl, h1, h2⟩
    · rename_i ed hed
      refine ⟨_, rfl, h1, fun hp => ?_⟩
      have h3 := h2 hp ed hed
      rw [ha ed hed] at h3
      cases h3
  | answer ok =>
    simp only [State.step]
    split
    · exact ⟨_, rfl, h1, h2⟩
    · refine ⟨_, rfl, ?_⟩
      cases ok
      · exact ⟨by simp only [Bool.false_eq_true, if_false]; omega, fun _ => h2 (by omega)⟩
      · simp only [if_true, OneWay, List.countP_append, List.countP_singleton, isReady]
        exact ⟨by omega, fun _ => h2 (by omega)⟩
  | initial buf => exact ⟨_, rfl, by simpa [List.countP_append, isReady] using h1, by simpa [List.countP_append, isReady] using h2⟩
  | changed buf done => exact ⟨_, rfl, by simpa [List.countP_append, isReady] using h1, by simpa [List.countP_append, isReady] using h2⟩
  | stop => exact ⟨_, rfl, by simpa [List.countP_append, isReady] using h1, by simpa [List.countP_append, isReady] using h2⟩
  | close => exact ⟨_, rfl, h1, fun _ ed hed => by cases hed⟩
  | work =>
    simp only [State.step, State.work]
    split
    · exact ⟨_, rfl, h1, h2⟩
    · split
      · exact ⟨_, rfl, h1, h2⟩
      · rename_i rest hc
        rw [hc] at h1 h2
        exact ⟨_, rfl, by simpa [isReady] using h1, by simpa [isReady] using h2⟩
      · rename_i rest hc
        rw [hc, List.countP_cons_of_pos (by rfl)] at h1 h2
        split
        · rename_i hed
          exact ⟨_, rfl, by simp only; omega, fun _ ed h => by simp only [hed] at h; cases h⟩
        · rename_i ed hed
          have hst := h2 (by omega) ed hed
          rw [Editor.transactionReady, hst]
          exact ⟨_, rfl, by simp only; omega, fun hp => by simp only at hp; omega⟩
      · rename_i buf done rest hc
        rw [hc, List.countP_cons_of_neg (by simp [isReady])] at h1 h2
        split
        · rename_i ed e hed he
          obtain ⟨r, hr⟩ := mergeNewState_eq (o := o) ed e
          rw [hr]
          refine ⟨_, rfl, by simpa using h1, fun hp ed' hed' => ?_⟩
          simp only [Option.some.injEq] at hed'
          subst hed'
          exact h2 (by simpa using hp) ed hed
        · exact ⟨_, rfl, h1, h2⟩

theorem run_oneWay {s : State E B} {as : List (Action B)} (h : OneWay s) (ha : Along o Attaches s as) : ∃ s', s.run o as = some s' ∧ OneWay s' := by
  induction as generalizing s with
  | nil => exact ⟨s, rfl, h⟩
  | cons a as ih =>
    obtain ⟨s1, h1, h2⟩ := step_oneWay h ha.1
    obtain ⟨s2, h3, h4⟩ := ih h2 (ha.2 s1 h1)
    exact ⟨s2, by rw [State.run, h1]; exact h3, h4⟩

/-- What holds as long as all goes well: `on` says whether there is a store, `ks` are the edits since. -/
structure Well (o : Ops E B) (knows : E → Nat → Prop) (s : State E B) (on : Bool) (ks : List Nat) (ed : Editor E) : Prop where
  editor : s.editor = some ed
  one : OneWay s
  goes : s.ended = false
  noStop : ∀ m ∈ s.chan, m ≠ .stop
  store : on = ed.store.isSome
  off : on = false → ks = []
  rev : knows ed.engine ed.lastRev
  synced : knows ed.engine ed.lastSynced
  all : ∀ k ∈ ks, knows ed.engine k
  way : ed.store = some true → s.asked + s.chan.countP isReady = 1
  stored : ed.store = some false → ∀ k ∈ ks, Stored o knows s k

/-- Whether there is a store after an action. -/
def nowOn : Action B → Bool → Bool
  | .attach, _ => true
  | _, on => on

/-- The edit of an action that counts. -/
def newEdits : Action B → Bool → List Nat
  | .edit id, true => [id]
  | _, _ => []

theorem edits_cons (a : Action B) (as : List (Action B)) (on : Bool) : edits (a :: as) on = newEdits a on ++ edits as (nowOn a on) := by
  cases a <;> cases on <;> simp [edits, newEdits, nowOn]

theorem allowed_attaches {s : State E B} {a : Action B} (h : Allowed knows s a) : Attaches s a := by
  cases a <;> first | exact h | trivial

theorem step_well (ho : Lawful o knows) {s : State E B} {on : Bool} {ks : List Nat} {ed : Editor E} (h : Well o knows s on ks ed) {a : Action B}
    (ha : Allowed knows s a) : ∃ s' ed', s.step o a = some s' ∧ Well o knows s' (nowOn a on) (ks ++ newEdits a on) ed' := by
  obtain ⟨s1, hs1, hone⟩ := step_oneWay (o := o) h.one (allowed_attaches ha)
  refine ⟨s1, ?_⟩
  have hed := h.editor
  cases a with
  | stop => exact ha.elim
  | close => exact ha.elim
  | initial buf =>
    refine ⟨ed, hs1, ?_⟩
    cases hs1
    refine ⟨hed, hone, h.goes, ?_, h.store, ?_, h.rev, h.synced, by simpa [newEdits] using h.all, ?_, by simpa [newEdits, Stored] using h.stored⟩
    · intro m hm
      rw [List.mem_append, List.mem_singleton] at hm
      rcases hm with hm | rfl
      · exact h.noStop m hm
      · simp
    · simpa [newEdits, nowOn] using h.off
    · simpa [List.countP_append, isReady] using h.way
  | changed buf done =>
    refine ⟨ed, hs1, ?_⟩
    cases hs1
    refine ⟨hed, hone, h.goes, ?_, h.store, ?_, h.rev, h.synced, by simpa [newEdits] using h.all, ?_, by simpa [newEdits, Stored] using h.stored⟩
    · intro m hm
      rw [List.mem_append, List.mem_singleton] at hm
      rcases hm with hm | rfl
      · exact h.noStop m hm
      · simp
    · simpa [newEdits, nowOn] using h.off
    · simpa [List.countP_append, isReady] using h.way
  | answer ok =>
    have hok : ok = true := ha
    subst hok
    refine ⟨ed, hs1, ?_⟩
    simp only [State.step] at hs1
    split at hs1
    · cases hs1
      simpa [newEdits, nowOn] using h
    · rename_i hn
      cases hs1
      refine ⟨hed, hone, h.goes, ?_, h.store, ?_, h.rev, h.synced, by simpa [newEdits] using h.all, ?_, by simpa [newEdits, Stored] using h.stored⟩
      · intro m hm
        simp only [if_true, List.mem_append, List.mem_singleton] at hm
        rcases hm with hm | rfl
        · exact h.noStop m hm
        · simp
      · simpa [newEdits, nowOn] using h.off
      · intro hst
        have := h.way hst
        simp only [if_true, List.countP_append, List.countP_singleton, isReady]
        omega
  | attach =>
    have hst : ed.store = none := ha ed hed
    simp only [State.step, hed] at hs1
    cases hs1
    refine ⟨{ ed with store := some false }, by simp [State.step, hed], rfl, hone, h.goes, h.noStop, rfl, ?_, h.rev, h.synced, by simpa [newEdits] using h.all, ?_, ?_⟩
    · intro hx
      cases hx
    · intro hx
      cases hx
    · have : on = false := by rw [h.store, hst]; rfl
      simp [newEdits, h.off this]
  | edit id =>
    have hfresh : ¬ knows ed.engine id := ha ed hed
    have hr : ¬ o.head (o.edit ed.engine id) = ed.lastRev := by
      rw [ho.headEdit]
      rintro rfl
      exact hfresh h.rev
    have hl : ed.lastSynced ≠ o.head (o.edit ed.engine id) := by
      rw [ho.headEdit]
      rintro rfl
      exact hfresh h.synced
    simp only [State.step, hed, Editor.commitDelta, if_neg hr, Editor.syncStateChanged] at hs1
    have hstep := hs1
    cases hst : ed.store with
    | none =>
      have hon : on = false := by rw [h.store, hst]; rfl
      simp only [hst] at hs1
      cases hs1
      refine ⟨_, by simp only [State.step, hed, Editor.commitDelta, if_neg hr, Editor.syncStateChanged, hst], rfl, hone, h.goes, h.noStop, ?_, ?_, ?_, ?_, ?_, ?_, ?_⟩
      · simp [nowOn, hon]
      · simp [hon, newEdits, h.off hon]
      · exact ho.head _
      · exact (ho.edit _ _ _).2 (.inl h.synced)
      · simp [hon, newEdits, h.off hon]
      · intro hx
        cases hx
      · intro hx
        cases hx
    | some pending =>
      have hon : on = true := by rw [h.store, hst]; rfl
      simp only [hst, ne_eq, hl, not_false_iff, if_true] at hs1
      refine ⟨⟨o.edit ed.engine id, o.head (o.edit ed.engine id), o.head (o.edit ed.engine id), some true⟩, ?_, ?_⟩
      · simp only [State.step, hed, Editor.commitDelta, if_neg hr, Editor.syncStateChanged, hst, ne_eq, hl, not_false_iff, if_true]
        exact hs1
      · have hall : ∀ k ∈ ks ++ newEdits (.edit id : Action B) on, knows (o.edit ed.engine id) k := by
          intro k hk
          rw [ho.edit]
          simp only [hon, newEdits, List.mem_append, List.mem_singleton] at hk
          exact hk.imp (h.all k) (fun x => x)
        cases pending
        · simp only [Bool.false_eq_true, if_false] at hs1
          cases hs1
          refine ⟨rfl, hone, h.goes, h.noStop, ?_, ?_, ho.head _, ho.head _, hall, ?_, ?_⟩
          · simp [nowOn, hon]
          · simp [nowOn, hon]
          · intro _
            have := hone.1
            simp only at this ⊢
            omega
          · intro hx
            cases hx
        · simp only [if_true] at hs1
          cases hs1
          refine ⟨?_, hone, h.goes, h.noStop, ?_, ?_, ho.head _, ho.head _, hall, ?_, ?_⟩
          · rfl
          · simp [nowOn, hon]
          · simp [nowOn, hon]
          · intro _
            exact h.way hst
          · intro hx
            cases hx
  | work =>
    simp only [State.step, State.work, h.goes] at hs1 ⊢
    simp only [Bool.false_eq_true, if_false] at hs1 ⊢
    cases hc : s.chan with
    | nil =>
      simp only [hc] at hs1 ⊢
      cases hs1
      exact ⟨ed, rfl, by simpa [newEdits, nowOn] using h⟩
    | cons m rest =>
      have hstop : ∀ m' ∈ rest, m' ≠ .stop := fun m' hm => h.noStop m' (by rw [hc]; exact .tail _ hm)
      cases m with
      | stop => exact absurd rfl (h.noStop .stop (by rw [hc]; exact .head _))
      | ready =>
        have hw : ed.store = some true := h.one.2 (by rw [hc, List.countP_cons_of_pos (by rfl)]; omega) ed hed
        simp only [hc, hed, Editor.transactionReady, hw] at hs1 ⊢
        cases hs1
        refine ⟨_, rfl, rfl, hone, rfl, hstop, ?_, ?_, h.rev, h.synced, by simpa [newEdits] using h.all, ?_, ?_⟩
        · have := h.store
          rw [hw] at this
          simpa [nowOn] using this
        · simpa [newEdits, nowOn] using h.off
        · intro hx
          cases hx
        · intro _ k hk
          exact ⟨_, _, rfl, ho.read _, by simpa [newEdits] using h.all k (by simpa [newEdits] using hk)⟩
      | newState buf done =>
        have hcount : List.countP isReady (.newState buf done :: rest : List (Msg B)) = List.countP isReady rest :=
          List.countP_cons_of_neg (by simp [isReady])
        simp only [hc, hed] at hs1 ⊢
        cases hb : o.decode buf with
        | none =>
          simp only [hb] at hs1 ⊢
          cases hs1
          refine ⟨ed, rfl, rfl, hone, rfl, hstop, h.store, ?_, h.rev, h.synced, by simpa [newEdits] using h.all, ?_, by simpa [newEdits, Stored] using h.stored⟩
          · simpa [newEdits, nowOn] using h.off
          · have := h.way
            rw [hc, hcount] at this
            exact this
        | some e =>
          simp only [hb] at hs1 ⊢
          obtain ⟨r, hr⟩ := mergeNewState_eq (o := o) ed e
          have hrev : knows (o.merge ed.engine e) r := by
            have hd : (Editor.mergeNewState o ed e).1.lastRev = r := by rw [hr]
            simp only [Editor.mergeNewState, Editor.commitDelta] at hd
            split at hd
            · simp only at hd
              rw [← hd, ho.merge]
              exact .inl h.rev
            · rw [Editor.syncStateChanged.eq_def] at hd
              simp only at hd
              split at hd
              · simp only at hd
                rw [← hd]
                exact ho.head _
              · simp only [ne_eq, not_true_eq_false, if_false] at hd
                rw [← hd]
                exact ho.head _
          rw [hr] at hs1 ⊢
          cases hs1
          refine ⟨_, rfl, rfl, hone, rfl, hstop, h.store, ?_, hrev, ho.head _, ?_, ?_, by simpa [newEdits, Stored] using h.stored⟩
          · simpa [newEdits, nowOn] using h.off
          · intro k hk
            rw [ho.merge]
            exact .inl (h.all k (by simpa [newEdits] using hk))
          · have := h.way
            rw [hc, hcount] at this
            exact this

theorem run_well (ho : Lawful o knows) {s : State E B} {on : Bool} {ks : List Nat} {ed : Editor E} (h : Well o knows s on ks ed) {as : List (Action B)}
    (ha : Along o (Allowed knows) s as) : ∃ s' on' ed', s.run o as = some s' ∧ Well o knows s' on' (ks ++ edits as on) ed' := by
  induction as generalizing s on ks ed with
  | nil => exact ⟨s, on, ed, rfl, by simpa [edits] using h⟩
  | cons a as ih =>
    obtain ⟨s1, ed1, h1, h2⟩ := step_well ho h ha.1
    obtain ⟨s2, on2, ed2, h3, h4⟩ := ih h2 (ha.2 s1 h1)
    refine ⟨s2, on2, ed2, by rw [State.run, h1]; exact h3, ?_⟩
    rwa [edits_cons, ← List.append_assoc]

theorem start_well (ho : Lawful o knows) (e : E) : Well o knows (State.start o e) false [] ⟨e, o.head e, o.head e, none⟩ :=
  ⟨rfl, by simp [OneWay, State.start], rfl, by simp [State.start], rfl, fun _ => rfl, ho.head e, ho.head e, by simp, by simp, by simp⟩

theorem Well.quiet {s : State E B} {on : Bool} {ks : List Nat} {ed : Editor E} (h : Well o knows s on ks ed) (ha : s.asked = 0) (hc : s.chan = []) :
    ∀ k ∈ ks, Stored o knows s k := by
  intro k hk
  cases hst : ed.store with
  | none =>
    have : on = false := by rw [h.store, hst]; rfl
    rw [h.off this] at hk
    cases hk
  | some p =>
    cases p
    · exact h.stored hst k hk
    · have := h.way hst
      rw [ha, hc] at this
      simp at this

theorem run_append (s : State E B) (as bs : List (Action B)) : s.run o (as ++ bs) = (s.run o as).bind fun s' => s'.run o bs := by
  induction as generalizing s with
  | nil => rfl
  | cons a as ih =>
    rw [List.cons_append, State.run, State.run]
    cases s.step o a with
    | none => rfl
    | some s' => exact ih s'

theorem work_asked {s s' : State E B} (h : s.work o = some s') (hg : s.ended = false) : s'.asked = s.asked ∧ s'.chan = s.chan.tail := by
  simp only [State.work, hg, Bool.false_eq_true, if_false] at h
  split at h
  · cases h
    simp [*]
  · cases h
    simp [*]
  · split at h
    · cases h
      simp [*]
    · split at h
      · cases h
      · cases h
        simp [*]
  · split at h
    · rename_i ed e _ _
      obtain ⟨r, hr⟩ := mergeNewState_eq (o := o) ed e
      rw [hr] at h
      cases h
      simp [*]
    · cases h
      simp [*]

theorem drain (ho : Lawful o knows) (n : Nat) {s : State E B} {on : Bool} {ks : List Nat} {ed : Editor E} (h : Well o knows s on ks ed) (hn : s.chan.length = n) :
    ∃ s' on' ed', s.run o (List.replicate n .work) = some s' ∧ Well o knows s' on' ks ed' ∧ s'.asked = s.asked ∧ s'.chan = [] := by
  induction n generalizing s on ed with
  | zero => exact ⟨s, on, ed, rfl, h, rfl, List.length_eq_zero_iff.1 hn⟩
  | succ n ih =>
    obtain ⟨s1, ed1, h1, h2⟩ := step_well ho h (a := .work) trivial
    have hw := work_asked (o := o) h1 h.goes
    obtain ⟨s2, on2, ed2, h3, h4, h5, h6⟩ := ih (by simpa [newEdits] using h2) (by rw [hw.2, List.length_tail]; omega)
    exact ⟨s2, on2, ed2, by rw [List.replicate_succ, State.run, h1]; exact h3, h4, by rw [h5, hw.1], h6⟩

/-- Nothing comes from the ledger any more. -/
def Stuck (s : State E B) : Prop :=
  s.asked = 0 ∧ s.chan.countP isReady = 0 ∧ ∀ ed, s.editor = some ed → ed.store = some true

theorem step_stuck {s s' : State E B} {a : Action B} (h : Stuck s) (ha : a ≠ .attach) (hs : s.step o a = some s') : Stuck s' ∧ s'.stored = s.stored := by
  obtain ⟨h1, h2, h3⟩ := h
  cases a with
  | attach => exact absurd rfl ha
  | edit id =>
    simp only [State.step] at hs
    split at hs
    · cases hs
      exact ⟨⟨h1, h2, h3⟩, rfl⟩
    · rename_i ed hed
      obtain ⟨r, l, st, n, hc, hst⟩ := commitDelta_eq (o := o) { ed with engine := o.edit ed.engine id }
      simp only [hc] at hs
      have hed' := h3 ed hed
      rcases hst with ⟨hs1, hn⟩ | ⟨hs1, _⟩
      · cases hs
        refine ⟨⟨by simp only; omega, h2, ?_⟩, rfl⟩
        intro ed2 h
        cases h
        exact hs1.trans hed'
      · simp only at hs1
        rw [hs1] at hed'
        cases hed'
  | answer ok =>
    simp only [State.step, h1, if_true] at hs
    cases hs
    exact ⟨⟨h1, h2, h3⟩, rfl⟩
  | initial buf =>
    cases hs
    exact ⟨⟨h1, by simpa [List.countP_append, isReady] using h2, h3⟩, rfl⟩
  | changed buf done =>
    cases hs
    exact ⟨⟨h1, by simpa [List.countP_append, isReady] using h2, h3⟩, rfl⟩
  | stop =>
    cases hs
    exact ⟨⟨h1, by simpa [List.countP_append, isReady] using h2, h3⟩, rfl⟩
  | close =>
    cases hs
    exact ⟨⟨h1, h2, fun ed h => by cases h⟩, rfl⟩
  | work =>
    simp only [State.step, State.work] at hs
    split at hs
    · cases hs
      exact ⟨⟨h1, h2, h3⟩, rfl⟩
    · split at hs
      · cases hs
        exact ⟨⟨h1, h2, h3⟩, rfl⟩
      · rename_i rest hc
        cases hs
        rw [hc] at h2
        exact ⟨⟨h1, by simpa [isReady] using h2, h3⟩, rfl⟩
      · rename_i rest hc
        rw [hc, List.countP_cons_of_pos (by rfl)] at h2
        omega
      · rename_i buf done rest hc
        rw [hc, List.countP_cons_of_neg (by simp [isReady])] at h2
        split at hs
        · rename_i ed e hed he
          obtain ⟨r, hr⟩ := mergeNewState_eq (o := o) ed e
          rw [hr] at hs
          cases hs
          refine ⟨⟨h1, h2, ?_⟩, rfl⟩
          intro ed2 h
          cases h
          exact h3 ed hed
        · cases hs
          exact ⟨⟨h1, h2, h3⟩, rfl⟩

end Sync

variable {E B : Type} {o : Ops E B} {knows : E → Nat → Prop}

/-- **C109.**  Whatever happens, in whatever order, the editor never panics for want of a transaction, if a store is attached only where there is none. -/
theorem C109_safe {e : E} {as : List (Action B)} (ha : Along o Attaches (State.start o e) as) : (State.start o e).run o as ≠ none := by
  obtain ⟨s', h, _⟩ := run_oneWay (o := o) (s := State.start o e) (by simp [OneWay, State.start]) ha
  simp [h]

/-- **C109, in part.**  As long as new edits have new ids, transactions are granted, and neither the updater nor the buffer ends, whenever nothing is on its
way, all edits since the store was attached are in what was last put into the ledger, whatever came from other devices.  Missing: that several devices with one
ledger come to the same. -/
theorem C109_stored_partial (ho : Lawful o knows) {e : E} {as : List (Action B)} (ha : Along o (Allowed knows) (State.start o e) as) :
    ∃ s, (State.start o e).run o as = some s ∧ (s.asked = 0 → s.chan = [] → ∀ k ∈ edits as false, Stored o knows s k) := by
  obtain ⟨s, on, ed, h1, h2⟩ := run_well ho (start_well ho e) ha
  exact ⟨s, h1, fun h3 h4 => by simpa using h2.quiet h3 h4⟩

/-- **C109.**  If all went so far as before, then once the ledger answers and the updater has dealt with what is in its channel, all these edits are there. -/
theorem C109_soon (ho : Lawful o knows) {e : E} {as : List (Action B)} (ha : Along o (Allowed knows) (State.start o e) as) :
    ∃ n s, (State.start o e).run o (as ++ .answer true :: List.replicate n .work) = some s ∧ s.asked = 0 ∧ s.chan = [] ∧
      ∀ k ∈ edits as false, Stored o knows s k := by
  obtain ⟨s, on, ed, h1, h2⟩ := run_well ho (start_well ho e) ha
  obtain ⟨s1, ed1, h3, h4⟩ := step_well ho h2 (a := .answer true) rfl
  obtain ⟨s2, on2, ed2, h5, h6, h7, h8⟩ := drain ho _ h4 rfl
  have hz : s1.asked = 0 := by
    have := h2.one.1
    simp only [State.step] at h3
    split at h3 <;> cases h3
    · assumption
    · simp only
      omega
  refine ⟨s1.chan.length, s2, ?_, h7.trans hz, h8, fun k hk => h6.quiet (h7.trans hz) h8 k (by simpa [newEdits] using hk)⟩
  rw [run_append, h1]
  simp only [Option.bind_some]
  rw [State.run, h3]
  exact h5

/-- **C109.**  A state from elsewhere is merged, whatever was edited here: afterwards the engine knows what both knew, the promise is kept, and the ledger is
neither asked nor written to. -/
theorem C109_merged (ho : Lawful o knows) {s : State E B} {ed : Editor E} {buf : B} {e : E} {done : Option Nat} {rest : List (Msg B)}
    (hg : s.ended = false) (hed : s.editor = some ed) (hc : s.chan = .newState buf done :: rest) (hb : o.decode buf = some e) :
    ∃ s' ed', s.step o .work = some s' ∧ s'.editor = some ed' ∧ (∀ k, knows ed'.engine k ↔ knows ed.engine k ∨ knows e k) ∧ ed'.store = ed.store ∧
      s'.kept = done.toList ++ s.kept ∧ s'.asked = s.asked ∧ s'.stored = s.stored ∧ s'.chan = rest := by
  obtain ⟨r, hr⟩ := mergeNewState_eq (o := o) ed e
  refine ⟨{ s with
      chan := rest, kept := done.toList ++ s.kept,
      editor := some { ed with engine := o.merge ed.engine e, lastRev := r, lastSynced := o.head (o.merge ed.engine e) } }, _, ?_, rfl,
    fun k => ho.merge _ _ _, rfl, rfl, rfl, rfl, rfl⟩
  rw [State.step, State.work, if_neg (by simp [hg]), hc]
  simp only [hed, hb, hr]
  rfl

/-- **C109.**  A conflict is resolved with what both sides know; a side that is missing or cannot be read counts as empty. -/
theorem C109_resolve (ho : Lawful o knows) (left right : Side B) : match resolve o left right with
    | none => left = .failed ∨ right = .failed ∨ (left.state o = some none ∧ right.state o = some none)
    | some b => left ≠ .failed ∧ right ≠ .failed ∧ ∃ e, o.decode b = some e ∧
        ∀ k, knows e k ↔ (∃ a, left.state o = some (some a) ∧ knows a k) ∨ ∃ a, right.state o = some (some a) ∧ knows a k := by
  have key : ∀ x : Side B, (x.state o = none → x = .failed) ∧ (x.state o ≠ none → x ≠ .failed) := by
    intro x
    cases x <;> simp [Side.state]
  obtain ⟨l1, l2⟩ := key left
  obtain ⟨r1, r2⟩ := key right
  rw [resolve]
  cases hl : left.state o with
  | none => simp [l1 hl]
  | some a =>
    cases hr : right.state o with
    | none => cases a <;> simp [r1 hr]
    | some b =>
      have l3 := l2 (by simp [hl])
      have r3 := r2 (by simp [hr])
      cases a <;> cases b <;> simp [l3, r3, ho.read, ho.merge]

/-- **C109, refuted.**  If the ledger once fails to start a transaction, nothing is ever put into it again, whatever is edited. -/
theorem C109_stuck_refuted {s s' : State E B} {as : List (Action B)} (h : Stuck s) (ha : .attach ∉ as) (hs : s.run o as = some s') :
    s'.stored = s.stored := by
  induction as generalizing s with
  | nil =>
    cases hs
    rfl
  | cons a as ih =>
    rw [State.run] at hs
    split at hs
    · cases hs
    · rename_i s1 h1
      have hst := step_stuck h (fun hx => ha (by rw [hx]; exact .head _)) h1
      rw [ih hst.1 (fun hx => ha (.tail _ hx)) hs, hst.2]

/-- Engines for examples: the ids that are known, the newest first.  The empty list cannot be read. -/
def SyncExample.ops : Ops { l : List Nat // l ≠ [] } (List Nat) where
  merge a b := ⟨(b.1.filter fun k => k ∉ a.1) ++ a.1, by simp [a.2]⟩
  edit e i := ⟨i :: e.1, by simp⟩
  head e := e.1.head e.2
  encode e := e.1
  decode b := if h : b ≠ [] then some ⟨b, h⟩ else none

/-- The engine of a new buffer. -/
def SyncExample.empty : { l : List Nat // l ≠ [] } := ⟨[0], by simp⟩

open SyncExample

/-- The examples' engines are as they should be. -/
theorem SyncExample.lawful : Lawful ops fun e k => k ∈ e.1 where
  merge a b k := by
    simp only [ops, List.mem_append, List.mem_filter, decide_eq_true_eq]
    by_cases h : k ∈ a.1 <;> simp [h]
  edit e i k := by
    simp only [ops, List.mem_cons]
    exact Or.comm
  headEdit e i := rfl
  head e := List.head_mem _
  read e := by simp [ops, e.2]

/-- Edits before and after the ledger grants a transaction, with states from elsewhere. -/
def SyncExample.actions : List (Action (List Nat)) := [.attach, .edit 1, .changed [7, 0] 1, .edit 2, .answer true, .work, .edit 3, .work, .edit 4]

/-- The example meets the hypothesis of `C109_stored_partial` and `C109_soon`. -/
example : Along ops (Allowed fun e k => k ∈ e.1) (State.start ops empty) actions := by
  simp [Along, actions, Allowed, Attaches, State.step, State.work, State.start, empty, ops, Editor.commitDelta, Editor.syncStateChanged, Editor.mergeNewState,
    Editor.transactionReady]

example : edits actions false = [1, 2, 3, 4] := by decide

example : ((State.start ops empty).run ops (actions ++ [.answer true, .work])).map (fun s => s.stored) = some [[4, 3, 7, 2, 1, 0], [3, 7, 2, 1, 0]] := by
  decide +kernel

/-- A failure leads to the state of `C109_stuck_refuted`. -/
example : ∃ s, (State.start ops empty).run ops [.attach, .edit 1, .answer false] = some s ∧ Stuck s ∧ s.stored = [] :=
  ⟨_, rfl, ⟨rfl, rfl, fun ed h => by cases h; rfl⟩, rfl⟩

/-- **C109, refuted.**  Edits before the store was attached are not put into the ledger as long as there is no other edit. -/
theorem C109_before_refuted : ((State.start ops empty).run ops [.edit 1, .attach, .answer true, .work]).map (fun s => (s.asked, s.stored, s.chan.length))
    = some (0, [], 0) := by decide +kernel

/-- **C109, refuted.**  A state that cannot be read leaves the ledger waiting for ever: the promise is not kept. -/
theorem C109_waiting_refuted : ((State.start ops empty).run ops [.attach, .changed [] 1, .work, .changed [7, 0] 2, .work]).map (fun s => (s.kept, s.chan.length))
    = some ([2], 0) := by decide +kernel

/-- **C109, refuted.**  A conflict of two states that cannot be read is never resolved. -/
theorem C109_conflict_refuted : resolve ops (.bytes []) (.bytes []) = none := by decide +kernel

end Xi
