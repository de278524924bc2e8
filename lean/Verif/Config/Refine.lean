import Verif.Config.Lemmas

/-!
# The configuration manager and the settings it stands for
-/

namespace Xi

namespace Config

set_option linter.unusedSectionVars false

variable {V : Type} [DecidableEq V]

/-- What the user has set in a domain, in the tables of the manager. -/
def userOf (configs : Map Domain (Pair V)) (d : Domain) (k : String) : Option V := (((configs.lookup d).bind (·.user)).getD []).lookup k

/-- The basic settings of a domain, in the tables of the manager. -/
def baseOf (configs : Map Domain (Pair V)) (d : Domain) (k : String) : Option V := (((configs.lookup d).bind (·.base)).getD []).lookup k

/-- The tables about the domains stand for the user's settings. -/
structure Tables (configs : Map Domain (Pair V)) (w : World V) : Prop where
  general : ∃ p t, configs.lookup .general = some p ∧ p.base = some t ∧ ∀ k, t.lookup k = w.defaults k
  ok : ∀ d p, configs.lookup d = some p → p.Ok
  distinct : ∀ d p, configs.lookup d = some p → Distinct (p.user.getD [])
  user : ∀ d k, userOf configs d k = w.user d k
  sysBase : ∀ i p, configs.lookup (.sysOverride i) = some p → p.base = none
  userBase : ∀ i p, configs.lookup (.userOverride i) = some p → p.base = none

/-- A collection of languages: every name once, and with its own definition. -/
structure Languages.WF (l : Languages V) : Prop where
  distinct : Distinct l.named
  names : ∀ n d, l.named.lookup n = some d → d.name = n

/-- The manager stands for the settings, apart from the stored configurations of the buffers. -/
structure Base (m : Manager V) (w : World V) : Prop where
  tables : Tables m.configs w
  wf : m.languages.WF
  langs : ∀ n, w.langs n = (m.languages.named.lookup n).map fun _ => baseOf m.configs (.language n)
  ext : ∀ e, w.ext e = m.languageForPath e
  tags : ∀ i, w.tags i = (m.tags.lookup i).map fun t => (t.detected, t.user)

/-- The stored configuration of a buffer is right. -/
def Stored (w : World V) (id : Nat) (c : BufferConfig V) : Prop := ∀ k, stackGet c.source k = w.value id k

/-- The manager stands for the settings. -/
structure Refines (m : Manager V) (w : World V) : Prop where
  base : Base m w
  unloaded : ∀ n k, m.languages.named.lookup n = none → baseOf m.configs (.language n) k = none
  distinct : Distinct m.buffers
  same : ∀ i, (m.buffers.lookup i).isSome = (m.tags.lookup i).isSome
  stored : ∀ i c, m.buffers.lookup i = some c → Stored w i c

theorem value_eq (w : World V) (id : Nat) (k : String) : w.value id k = (w.user (.userOverride id) k).or ((w.user (.sysOverride id) k).or
    ((match w.language id with
      | some n => (w.user (.language n) k).or (((w.langs n).getD fun _ => none) k)
      | none => none).or ((w.user .general k).or (w.defaults k)))) := by
  have step : ∀ (s : Settings V) (l : List (Settings V)), (s :: l).findSome? (· k) = (s k).or (l.findSome? (· k)) := by
    intro s l
    rw [List.findSome?_cons]
    cases s k <;> rfl
  unfold World.value World.layers
  cases w.language id with
  | none => simp only [List.append_nil, List.cons_append, List.nil_append, step, List.findSome?_nil, Option.or_none, Option.none_or]
  | some n => simp only [List.cons_append, List.nil_append, step, List.findSome?_nil, Option.or_none, Option.or_assoc]

theorem Tables.layer {configs : Map Domain (Pair V)} {w : World V} (h : Tables configs w) (d : Domain) (k : String) :
    ((configs.lookup d).bind fun p => p.cache.lookup k) = (w.user d k).or (baseOf configs d k) := by
  rw [← h.user d k, userOf, baseOf]
  cases hd : configs.lookup d with
  | none => simp
  | some p =>
    have := h.ok d p hd k
    simp only [Option.bind_some, this, Pair.says]

theorem language_eq {m : Manager V} {w : World V} (h : Base m w) (id : Nat) : m.loadedLanguage id = w.language id := by
  unfold Manager.loadedLanguage World.language
  rw [h.tags id]
  cases m.tags.lookup id with
  | none => rfl
  | some t =>
    simp only [Option.map_some, Option.bind_some, h.langs, Tag.resolve]
    cases hn : m.languages.named.lookup (t.user.getD t.detected) with
    | none => simp
    | some d => simp [h.wf.names _ _ hn]

theorem stack_value {m : Manager V} {w : World V} (h : Base m w) (id : Nat) (k : String) :
    stackGet (m.stack id) k = w.value id k := by
  have g : ((m.configs.lookup .general).bind fun p => p.cache.lookup k) = (w.user .general k).or (w.defaults k) := by
    obtain ⟨p, t, h1, h2, h3⟩ := h.tables.general
    rw [h.tables.layer]
    simp [h2, h3, baseOf, h1]
  have u : ((m.configs.lookup (.userOverride id)).bind fun p => p.cache.lookup k) = w.user (.userOverride id) k := by
    rw [h.tables.layer]
    cases hp : m.configs.lookup (.userOverride id) with
    | none => simp [baseOf, hp]
    | some p => simp [baseOf, hp, h.tables.userBase id p hp]
  have s : ((m.configs.lookup (.sysOverride id)).bind fun p => p.cache.lookup k) = w.user (.sysOverride id) k := by
    rw [h.tables.layer]
    cases hp : m.configs.lookup (.sysOverride id) with
    | none => simp [baseOf, hp]
    | some p => simp [baseOf, hp, h.tables.sysBase id p hp]
  have l : ∀ n, w.language id = some n → ((m.configs.lookup (.language n)).bind fun p => p.cache.lookup k) =
      (w.user (.language n) k).or (((w.langs n).getD fun _ => none) k) := by
    intro n hn
    have hs : (w.langs n).isSome = true := by
      unfold World.language at hn
      split at hn
      · cases hn
      · simp only at hn
        split at hn
        · cases hn; assumption
        · cases hn
    rw [h.tables.layer, h.langs]
    rw [h.langs] at hs
    cases hd : m.languages.named.lookup n with
    | none => rw [hd] at hs; cases hs
    | some d =>
      simp
  have join : ∀ (a b c d : Option (Pair V)), stackGet ((([a] ++ [b] ++ [c, d]).filterMap fun c => c).map (·.cache)).reverse k =
      (d.bind fun p => p.cache.lookup k).or ((c.bind fun p => p.cache.lookup k).or ((b.bind fun p => p.cache.lookup k).or (a.bind fun p => p.cache.lookup k))) := by
    intro a b c d
    have one : ∀ (x : Option (Pair V)) (rest : List (Table V)), stackGet (([x].filterMap fun c => c).map (·.cache) ++ rest) k =
        (x.bind fun p => p.cache.lookup k).or (stackGet rest k) := by
      intro x rest
      cases x with
      | none => simp [stackGet]
      | some p => simp only [stackGet]; simp [List.findSome?_cons]; cases p.cache.lookup k <;> simp
    have e : ((([a] ++ [b] ++ [c, d]).filterMap fun c => c).map (·.cache)).reverse = (([d].filterMap fun c => c).map (·.cache)) ++
        ((([c].filterMap fun c => c).map (·.cache)) ++ ((([b].filterMap fun c => c).map (·.cache)) ++ ((([a].filterMap fun c => c).map (·.cache)) ++ []))) := by
      cases a <;> cases b <;> cases c <;> cases d <;> rfl
    rw [e, one, one, one, one]
    simp [stackGet]
  rw [Manager.stack, language_eq h, value_eq]
  cases hl : w.language id with
  | some n =>
    simp only
    rw [join, u, s, l n hl, g]
  | none =>
    have := join (m.configs.lookup .general) none (m.configs.lookup (.sysOverride id)) (m.configs.lookup (.userOverride id))
    rw [u, s, g] at this
    simp only [Option.none_or]
    simp only [Option.bind_none, Option.none_or] at this
    rw [← this]
    congr 3

theorem generate_stored {σ : Schema V} {m : Manager V} {w : World V} (h : Base m w) {id : Nat} {c : BufferConfig V} (hc : m.generate σ id = some c) :
    Stored w id c := by
  intro k
  unfold Manager.generate intoConfig at hc
  split at hc
  · cases hc
    exact stack_value h id k
  · cases hc

theorem accepts_of_values {σ : Schema V} {w : World V} (hv : w.Valid σ) (id : Nat) {t : Table V} (ht : ∀ k, t.lookup k = w.value id k) : σ.accepts t = true := by
  unfold Schema.accepts
  rw [List.all_eq_true]
  intro k hk
  rw [ht]
  obtain ⟨v, h1, h2⟩ := hv.defaults k hk
  have hall : ∀ x, w.value id k = some x → σ.ok k x = true := by
    intro x hx
    unfold World.value at hx
    obtain ⟨l, hl, hlx⟩ := List.exists_of_findSome?_eq_some hx
    unfold World.layers at hl
    simp only [List.mem_append, List.mem_cons, List.not_mem_nil, or_false] at hl
    rcases hl with ((rfl | rfl) | hl) | rfl | rfl
    · exact hv.user k hk _ _ hlx
    · exact hv.user k hk _ _ hlx
    · cases hn : w.language id with
      | none => rw [hn] at hl; cases hl
      | some n =>
        rw [hn] at hl
        simp only [List.mem_cons, List.not_mem_nil, or_false] at hl
        rcases hl with rfl | rfl
        · exact hv.user k hk _ _ hlx
        · cases hln : w.langs n with
          | none => rw [hln] at hlx; cases hlx
          | some s => rw [hln] at hlx; exact hv.langs k hk n s x hln hlx
    · exact hv.user k hk _ _ hlx
    · rw [h1] at hlx; cases hlx; exact h2
  cases hx : w.value id k with
  | some x => exact hall x hx
  | none =>
    rw [value_eq, h1] at hx
    simp at hx

theorem generate_some {σ : Schema V} {m : Manager V} {w : World V} (h : Base m w) (hv : w.Valid σ) (id : Nat) : ∃ c, m.generate σ id = some c := by
  unfold Manager.generate intoConfig
  rw [if_pos]
  · exact ⟨_, rfl⟩
  · refine accepts_of_values hv id fun k => ?_
    rw [lookup_collate]
    exact stack_value h id k

/-! ## Updating the buffers -/

theorem updateBuffer_spec {σ : Schema V} {m m' : Manager V} {w : World V} (h : Base m w) {id : Nat} {c : Option (Table V)}
    (hu : m.updateBuffer σ id = some (m', c)) :
    ∃ new, m' = { m with buffers := set m.buffers id new } ∧ c = new.changesFrom (m.buffers.lookup id) ∧ Stored w id new := by
  unfold Manager.updateBuffer at hu
  cases hg : m.generate σ id with
  | none => rw [hg] at hu; cases hu
  | some new =>
    rw [hg] at hu
    cases hu
    exact ⟨new, rfl, rfl, generate_stored h hg⟩

theorem updateBuffer_some {σ : Schema V} {m : Manager V} {w : World V} (h : Base m w) (hv : w.Valid σ) (id : Nat) : ∃ x, m.updateBuffer σ id = some x := by
  obtain ⟨c, hc⟩ := generate_some h hv id
  unfold Manager.updateBuffer
  rw [hc]
  exact ⟨_, rfl⟩

theorem Base.buffers {m : Manager V} {w : World V} (h : Base m w) (b : Map Nat (BufferConfig V)) : Base { m with buffers := b } w :=
  ⟨h.tables, h.wf, h.langs, h.ext, h.tags⟩

theorem stored_reports {w : World V} {id : Nat} {old new : BufferConfig V} (hn : Stored w id new) :
    Reports (stackGet old.source) (w.value id) (new.changesFrom (some old)) := by
  have := diff_spec new.source old.source
  rwa [show stackGet new.source = w.value id from funext hn] at this

theorem updateLoop_spec {σ : Schema V} {w : World V} : ∀ (ks : List Nat) {m m' : Manager V} {out : List (Nat × Table V)}, Base m w → ks.Nodup → Distinct m.buffers →
    Manager.updateLoop σ ks m = some (m', out) →
    ∃ b, m' = { m with buffers := b } ∧ Distinct b ∧ (∀ i, i ∉ ks → b.lookup i = m.buffers.lookup i) ∧ (∀ i ∈ ks, ∃ c, b.lookup i = some c ∧ Stored w i c) ∧
      (∀ i, i ∉ ks → out.lookup i = none) ∧ (∀ i ∈ ks, ∀ old, m.buffers.lookup i = some old → Reports (stackGet old.source) (w.value i) (out.lookup i)) ∧ Distinct out
  | [], m, m', out, h, _, hd, hu => by
    cases hu
    exact ⟨m.buffers, rfl, hd, fun _ _ => rfl, by simp, fun _ _ => rfl, by simp, by simp [Distinct]⟩
  | k :: ks, m, m', out, h, hn, hd, hu => by
    rw [List.nodup_cons] at hn
    unfold Manager.updateLoop at hu
    cases h1 : m.updateBuffer σ k with
    | none => rw [h1] at hu; cases hu
    | some r =>
      obtain ⟨m1, c⟩ := r
      rw [h1] at hu
      obtain ⟨new, e1, e2, e3⟩ := updateBuffer_spec h h1
      simp only [Option.bind_eq_bind, Option.bind_some] at hu
      cases h2 : Manager.updateLoop σ ks m1 with
      | none => rw [h2] at hu; cases hu
      | some r =>
        obtain ⟨m2, out2⟩ := r
        rw [h2] at hu
        simp only [Option.bind_some, Option.pure_def, Option.some.injEq, Prod.mk.injEq] at hu
        obtain ⟨rfl, hout⟩ := hu
        subst e1
        obtain ⟨b, f1, f2, f3, f4, f5, f6, f7⟩ := updateLoop_spec ks (h.buffers _) hn.2 (distinct_set hd k new) h2
        have f3 : ∀ i, i ∉ ks → b.lookup i = (set m.buffers k new).lookup i := f3
        have f6 : ∀ i ∈ ks, ∀ old, (set m.buffers k new).lookup i = some old → Reports (stackGet old.source) (w.value i) (out2.lookup i) := f6
        refine ⟨b, f1, f2, ?_, ?_, ?_, ?_, ?_⟩
        · intro i hi
          simp only [List.mem_cons, not_or] at hi
          rw [f3 i hi.2, lookup_set, if_neg hi.1]
        · intro i hi
          rcases List.mem_cons.1 hi with rfl | hi'
          · exact ⟨new, by rw [f3 i hn.1, lookup_set, if_pos rfl], e3⟩
          · exact f4 i hi'
        · intro i hi
          simp only [List.mem_cons, not_or] at hi
          subst hout
          cases c with
          | none => exact f5 i hi.2
          | some c => rw [lookup_cons_ite, if_neg hi.1]; exact f5 i hi.2
        · intro i hi old hold
          rcases List.mem_cons.1 hi with rfl | hi'
          · have : out.lookup i = c := by
              subst hout
              cases c with
              | none => exact f5 i hn.1
              | some c => rw [lookup_cons_ite, if_pos rfl]
            rw [this, e2, hold]
            exact stored_reports e3
          · have hik : i ≠ k := by rintro rfl; exact hn.1 hi'
            have : out.lookup i = out2.lookup i := by
              subst hout
              cases c with
              | none => rfl
              | some c => rw [lookup_cons_ite, if_neg hik]
            rw [this]
            exact f6 i hi' old (by rw [lookup_set, if_neg hik]; exact hold)
        · subst hout
          cases c with
          | none => exact f7
          | some c =>
            unfold Distinct
            rw [List.map_cons, List.nodup_cons]
            refine ⟨?_, f7⟩
            rw [keys_iff, f5 k hn.1]
            simp

theorem updateLoop_some {σ : Schema V} {w : World V} (hv : w.Valid σ) : ∀ (ks : List Nat) {m : Manager V}, Base m w → ∃ x, Manager.updateLoop σ ks m = some x
  | [], m, _ => ⟨_, rfl⟩
  | k :: ks, m, h => by
    obtain ⟨⟨m1, c⟩, h1⟩ := updateBuffer_some h hv k
    obtain ⟨new, e1, -, -⟩ := updateBuffer_spec h h1
    have hb : Base m1 w := by rw [e1]; exact h.buffers _
    obtain ⟨⟨m2, out⟩, h2⟩ := updateLoop_some hv ks hb
    unfold Manager.updateLoop
    rw [h1]
    simp only [Option.bind_eq_bind, Option.bind_some, h2]
    exact ⟨_, rfl⟩

theorem updateAll_spec {σ : Schema V} {m m' : Manager V} {w : World V} {out : List (Nat × Table V)} (h : Base m w) (hd : Distinct m.buffers)
    (hs : ∀ i, (m.buffers.lookup i).isSome = (m.tags.lookup i).isSome) (hn : ∀ n k, m.languages.named.lookup n = none → baseOf m.configs (.language n) k = none)
    (hu : m.updateAll σ = some (m', out)) :
    Refines m' w ∧ m'.configs = m.configs ∧ m'.languages = m.languages ∧ m'.tags = m.tags ∧ (∀ i, (m'.buffers.lookup i).isSome = (m.buffers.lookup i).isSome) ∧
      (∀ i, m.buffers.lookup i = none → out.lookup i = none) ∧
      (∀ i old, m.buffers.lookup i = some old → Reports (stackGet old.source) (w.value i) (out.lookup i)) ∧ Distinct out := by
  unfold Manager.updateAll at hu
  obtain ⟨b, f1, f2, f3, f4, f5, f6, f7⟩ := updateLoop_spec (m.buffers.map Prod.fst) h hd hd hu
  have key : ∀ i, i ∈ m.buffers.map (·.1) ↔ (m.buffers.lookup i).isSome = true := fun i => keys_iff
  have same : ∀ i, (b.lookup i).isSome = (m.buffers.lookup i).isSome := by
    intro i
    by_cases hi : i ∈ m.buffers.map (·.1)
    · obtain ⟨c, hc, -⟩ := f4 i hi
      rw [hc, (key i).1 hi]
      rfl
    · rw [f3 i hi]
  subst f1
  refine ⟨⟨h.buffers b, hn, f2, fun i => by rw [← hs i]; exact same i, ?_⟩, rfl, rfl, rfl, same, ?_, ?_, f7⟩
  · intro i c hc
    have hi : i ∈ m.buffers.map (·.1) := by
      rw [key, ← same]
      show (b.lookup i).isSome = true
      have hc : b.lookup i = some c := hc
      rw [hc]; rfl
    obtain ⟨c', hc', hst⟩ := f4 i hi
    have hc : b.lookup i = some c := hc
    rw [hc] at hc'
    cases hc'
    exact hst
  · intro i hi
    exact f5 i (by rw [key, hi]; simp)
  · intro i old ho
    exact f6 i (by rw [key, ho]; rfl) old ho

end Config

end Xi
