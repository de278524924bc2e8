import Verif.Config.Refine

/-!
# The operations of the configuration manager
-/

namespace Xi

namespace Config

set_option linter.unusedSectionVars false

variable {V : Type} [DecidableEq V]

/-! ## Tables -/

theorem user_set (configs : Map Domain (Pair V)) (dom d : Domain) (p : Pair V) (k : String) :
    userOf (set configs dom p) d k = if d = dom then (p.user.getD []).lookup k else userOf configs d k := by
  unfold userOf
  rw [lookup_set]
  split <;> rfl

theorem base_set (configs : Map Domain (Pair V)) (dom d : Domain) (p : Pair V) (k : String) :
    baseOf (set configs dom p) d k = if d = dom then (p.base.getD []).lookup k else baseOf configs d k := by
  unfold baseOf
  rw [lookup_set]
  split <;> rfl

theorem setTable_base (configs : Map Domain (Pair V)) (dom d : Domain) (t : Table V) (k : String) :
    baseOf (set configs dom (((configs.lookup dom).getD (Pair.withBase none)).setTable t)) d k = baseOf configs d k := by
  rw [base_set]
  split
  · rename_i h
    subst h
    unfold baseOf Pair.setTable Pair.rebuild
    cases configs.lookup d <;> rfl
  · rfl

theorem Tables.setUser {configs : Map Domain (Pair V)} {w : World V} (h : Tables configs w) (dom : Domain) {t : Table V} (ht : Distinct t) :
    Tables (set configs dom (((configs.lookup dom).getD (Pair.withBase none)).setTable t)) (w.setUser dom (t.lookup ·)) := by
  constructor
  · obtain ⟨p, b, h1, h2, h3⟩ := h.general
    by_cases hd : Domain.general = dom
    · subst hd
      refine ⟨_, b, by rw [lookup_set, if_pos rfl], ?_, h3⟩
      rw [h1]
      exact h2
    · exact ⟨p, b, by rw [lookup_set, if_neg hd]; exact h1, h2, h3⟩
  · intro d p hp
    rw [lookup_set] at hp
    split at hp
    · cases hp; exact rebuild_ok _
    · exact h.ok d p hp
  · intro d p hp
    rw [lookup_set] at hp
    split at hp
    · cases hp; exact ht
    · exact h.distinct d p hp
  · intro d k
    rw [user_set]
    simp only [World.setUser]
    by_cases hd : d = dom
    · rw [if_pos hd, if_pos hd]; rfl
    · rw [if_neg hd, if_neg hd]; exact h.user d k
  · intro i p hp
    rw [lookup_set] at hp
    split at hp
    · rename_i hd
      cases hp
      rw [← hd]
      show ((configs.lookup (.sysOverride i)).getD (Pair.withBase none)).base = none
      cases hc : configs.lookup (.sysOverride i) with
      | none => rfl
      | some q => exact h.sysBase i q hc
    · exact h.sysBase i p hp
  · intro i p hp
    rw [lookup_set] at hp
    split at hp
    · rename_i hd
      cases hp
      rw [← hd]
      show ((configs.lookup (.userOverride i)).getD (Pair.withBase none)).base = none
      cases hc : configs.lookup (.userOverride i) with
      | none => rfl
      | some q => exact h.userBase i q hc
    · exact h.userBase i p hp

/-- What has to be looked at of an entry for a language whose basic settings change. -/
theorem Tables.setBase {configs : Map Domain (Pair V)} {w : World V} (h : Tables configs w) (n : String) (p : Pair V) (hp : p.Ok) (hdu : Distinct (p.user.getD []))
    (hu : ∀ k, (p.user.getD []).lookup k = w.user (.language n) k) : Tables (set configs (.language n) p) w := by
  constructor
  · obtain ⟨q, b, h1, h2, h3⟩ := h.general
    exact ⟨q, b, by rw [lookup_set, if_neg (by simp)]; exact h1, h2, h3⟩
  · intro d q hq
    rw [lookup_set] at hq
    split at hq
    · cases hq; exact hp
    · exact h.ok d q hq
  · intro d q hq
    rw [lookup_set] at hq
    split at hq
    · cases hq; exact hdu
    · exact h.distinct d q hq
  · intro d k
    rw [user_set]
    split
    · rename_i hd; rw [hd]; exact hu k
    · exact h.user d k
  · intro i q hq
    rw [lookup_set, if_neg (by simp)] at hq
    exact h.sysBase i q hq
  · intro i q hq
    rw [lookup_set, if_neg (by simp)] at hq
    exact h.userBase i q hq

theorem Tables.ensure {configs : Map Domain (Pair V)} {w : World V} (h : Tables configs w) (dom : Domain) (hd : configs.lookup dom = none) :
    Tables (set configs dom (Pair.withBase none)) w := by
  constructor
  · obtain ⟨q, b, h1, h2, h3⟩ := h.general
    refine ⟨q, b, ?_, h2, h3⟩
    rw [lookup_set, if_neg]
    · exact h1
    · rintro rfl; rw [h1] at hd; cases hd
  · intro d q hq
    rw [lookup_set] at hq
    split at hq
    · cases hq; exact withBase_ok _
    · exact h.ok d q hq
  · intro d q hq
    rw [lookup_set] at hq
    split at hq
    · cases hq; exact List.nodup_nil
    · exact h.distinct d q hq
  · intro d k
    rw [user_set]
    split
    · rename_i he
      subst he
      rw [← h.user, userOf, hd]
      rfl
    · exact h.user d k
  · intro i q hq
    rw [lookup_set] at hq
    split at hq
    · cases hq; rfl
    · exact h.sysBase i q hq
  · intro i q hq
    rw [lookup_set] at hq
    split at hq
    · cases hq; rfl
    · exact h.userBase i q hq

theorem lookup_table_filter {t : Table V} (ht : Distinct t) (null : V) (k : String) :
    (t.filter fun e => decide (e.2 ≠ null)).lookup k = (t.lookup k).filter (· ≠ null) := by
  rw [lookup_filter ht]
  cases t.lookup k with
  | none => rfl
  | some v => simp [Option.filter]

theorem Tables.check {σ : Schema V} {m : Manager V} {w : World V} (h : Tables m.configs w) {t : Table V} (ht : Distinct t) :
    ∃ b, m.checkTable σ t = some b ∧ (b = true ↔ w.Accepts σ (t.lookup ·)) := by
  obtain ⟨p, d, h1, h2, h3⟩ := h.general
  refine ⟨_, by rw [Manager.checkTable, h1, Option.bind_some, h2]; rfl, ?_⟩
  unfold Schema.accepts World.Accepts
  rw [List.all_eq_true]
  refine forall_congr' fun k => forall_congr' fun _ => ?_
  rw [lookup_insertAll, lookup_table_filter ht, h3]
  cases ((t.lookup k).filter (· ≠ σ.null)).or (w.defaults k) <;> simp

/-! ## Setting a table -/

theorem Refines.of_eq {m : Manager V} {w w' : World V} (h : Refines m w) (e : w = w') : Refines m w' := e ▸ h

/-- The changes of all buffers are reported, and nothing else. -/
def ReportsAll (w w' : World V) (out : List (Nat × Table V)) : Prop :=
  Distinct out ∧ ∀ i, if (w.tags i).isSome then Reports (w.value i) (w'.value i) (out.lookup i) else out.lookup i = none

theorem Refines.tracked {m : Manager V} {w : World V} (h : Refines m w) (i : Nat) : (w.tags i).isSome = (m.buffers.lookup i).isSome := by
  rw [h.base.tags i, h.same i, Option.isSome_map]

theorem Base.setUser {m : Manager V} {w : World V} (h : Base m w) (dom : Domain) {t : Table V} (ht : Distinct t) :
    Base { m with configs := set m.configs dom (((m.configs.lookup dom).getD (Pair.withBase none)).setTable t) } (w.setUser dom (t.lookup ·)) := by
  refine ⟨h.tables.setUser dom ht, h.wf, ?_, h.ext, h.tags⟩
  intro n
  show w.langs n = _
  rw [h.langs]
  congr 1
  funext _ k
  rw [setTable_base]

theorem setUserConfig_eq (σ : Schema V) (m : Manager V) (dom : Domain) (t : Table V) {b : Bool} (hb : m.checkTable σ t = some b) :
    m.setUserConfig σ dom t = if b then
      (Manager.updateAll σ { m with configs := set m.configs dom (((m.configs.lookup dom).getD (Pair.withBase none)).setTable t) }).map fun r => (r.1, some r.2)
    else some (m, none) := by
  unfold Manager.setUserConfig
  rw [hb]
  cases b with
  | false => rfl
  | true =>
    simp only [Option.bind_eq_bind, Option.bind_some, if_true]
    cases Manager.updateAll σ { m with configs := set m.configs dom (((m.configs.lookup dom).getD (Pair.withBase none)).setTable t) } <;> rfl

theorem setUser_spec {σ : Schema V} {m m' : Manager V} {w : World V} {dom : Domain} {t : Table V} {r : Option (List (Nat × Table V))} (ht : Distinct t)
    (h : Refines m w) (hu : m.setUserConfig σ dom t = some (m', r)) :
    (¬ w.Accepts σ (t.lookup ·) ∧ m' = m ∧ r = none) ∨
    (w.Accepts σ (t.lookup ·) ∧ ∃ out, r = some out ∧ Refines m' (w.setUser dom (t.lookup ·)) ∧ ReportsAll w (w.setUser dom (t.lookup ·)) out) := by
  obtain ⟨b, hb, hacc⟩ := h.base.tables.check (σ := σ) ht
  rw [setUserConfig_eq σ m dom t hb] at hu
  cases b with
  | false =>
    cases hu
    exact .inl ⟨fun c => by simpa using hacc.2 c, rfl, rfl⟩
  | true =>
    refine .inr ⟨hacc.1 rfl, ?_⟩
    rw [if_pos rfl] at hu
    cases hup : Manager.updateAll σ { m with configs := set m.configs dom (((m.configs.lookup dom).getD (Pair.withBase none)).setTable t) } with
    | none => rw [hup] at hu; cases hu
    | some r =>
      rw [hup] at hu
      cases hu
      obtain ⟨g1, -, -, -, -, g6, g7, g8⟩ := updateAll_spec (h.base.setUser dom ht) h.distinct h.same (fun n k hn => by rw [setTable_base]; exact h.unloaded n k hn) hup
      refine ⟨_, rfl, g1, g8, fun i => ?_⟩
      rw [h.tracked i]
      cases ho : m.buffers.lookup i with
      | none => exact g6 i ho
      | some old =>
        rw [Option.isSome_some, if_pos rfl]
        have := g7 i old ho
        rwa [show stackGet old.source = w.value i from funext (h.stored i old ho)] at this

/-- No field has the value null. -/
def NoNull (σ : Schema V) (t : Settings V) : Prop := ∀ k ∈ σ.fields, t k ≠ some σ.null

theorem Valid.setUser {σ : Schema V} {w : World V} (h : w.Valid σ) (dom : Domain) {t : Settings V} (ha : w.Accepts σ t) (hn : NoNull σ t) :
    (w.setUser dom t).Valid σ := by
  refine ⟨h.defaults, ?_, h.langs⟩
  intro k hk d v hv
  simp only [World.setUser] at hv
  split at hv
  · obtain ⟨v', h1, h2⟩ := ha k hk
    have hne : v ≠ σ.null := by rintro rfl; exact hn k hk hv
    rw [hv, Option.filter_some, if_pos (by simpa using hne), Option.some_or] at h1
    cases h1
    exact h2
  · exact h.user k hk d v hv

theorem setUser_some {σ : Schema V} {m : Manager V} {w : World V} {dom : Domain} {t : Table V} (ht : Distinct t) (h : Base m w) (hv : w.Valid σ) (hn : NoNull σ (t.lookup ·)) :
    ∃ x, m.setUserConfig σ dom t = some x := by
  obtain ⟨b, hb, hacc⟩ := h.tables.check (σ := σ) ht
  rw [setUserConfig_eq σ m dom t hb]
  cases b with
  | false => exact ⟨_, rfl⟩
  | true =>
    rw [if_pos rfl]
    obtain ⟨x, hx⟩ := updateLoop_some (Valid.setUser hv dom (hacc.1 rfl) hn) (m.buffers.map Prod.fst) (h.setUser dom ht)
    unfold Manager.updateAll
    refine ⟨(x.1, some x.2), ?_⟩
    have hx : Manager.updateLoop σ (m.buffers.map fun x => x.1) { m with configs := set m.configs dom (((m.configs.lookup dom).getD (Pair.withBase none)).setTable t) } = some x := hx
    show Option.map _ (Manager.updateLoop σ (m.buffers.map fun x => x.1) _) = _
    rw [hx]
    rfl

/-! ## Changing a table -/

theorem lookup_tableForUpdate {σ : Schema V} {m : Manager V} {w : World V} (h : Tables m.configs w) (dom : Domain) (changes : Table V) (k : String) :
    (m.tableForUpdate σ dom changes).2.lookup k = World.modified σ.null (w.user dom) (changes.lookup ·) k := by
  have e : (m.tableForUpdate σ dom changes).2 = changes.foldr (updateEntry σ.null) (((m.configs.lookup dom).getD (Pair.withBase none)).user.getD []) := rfl
  rw [e, lookup_update]
  congr 1
  funext k
  rw [← h.user dom k, userOf]
  cases m.configs.lookup dom <;> rfl

theorem distinct_update (null : V) {m : Table V} (h : Distinct m) : ∀ changes : Table V, Distinct (changes.foldr (updateEntry null) m)
  | [] => h
  | e :: changes => by
    rw [List.foldr_cons, updateEntry]
    split
    · exact distinct_unset (distinct_update null h changes) _
    · exact distinct_set (distinct_update null h changes) _ _

theorem tableForUpdate_refines {σ : Schema V} {m : Manager V} {w : World V} (h : Refines m w) (dom : Domain) (changes : Table V) :
    Refines (m.tableForUpdate σ dom changes).1 w := by
  unfold Manager.tableForUpdate
  cases hd : m.configs.lookup dom with
  | some p => exact h
  | none =>
    simp only [Option.isSome_none, Bool.false_eq_true, if_false, Option.getD_none]
    have hb : ∀ d k, baseOf (set m.configs dom (Pair.withBase none)) d k = baseOf m.configs d k := by
      intro d k
      rw [base_set]
      split
      · rename_i e; subst e
        unfold baseOf
        rw [hd]
        rfl
      · rfl
    refine ⟨⟨h.base.tables.ensure dom hd, h.base.wf, ?_, h.base.ext, h.base.tags⟩, ?_, h.distinct, h.same, h.stored⟩
    · intro n
      rw [h.base.langs]
      congr 1
      funext _ k
      exact (hb _ k).symm
    · intro n k hn
      rw [hb]
      exact h.unloaded n k hn

/-! ## The buffers -/

theorem Base.setTag {m : Manager V} {w : World V} (h : Base m w) (id : Nat) (t : Tag) :
    Base { m with tags := set m.tags id t } (w.setTag id (some (t.detected, t.user))) := by
  refine ⟨⟨h.tables.general, h.tables.ok, h.tables.distinct, h.tables.user, h.tables.sysBase, h.tables.userBase⟩, h.wf, h.langs, h.ext, ?_⟩
  intro i
  show (w.setTag id _).tags i = ((set m.tags id t).lookup i).map _
  rw [lookup_set]
  simp only [World.setTag]
  split
  · rfl
  · exact h.tags i

theorem value_setTag (w : World V) (id i : Nat) (tag : Option (String × Option String)) (hi : i ≠ id) : (w.setTag id tag).value i = w.value i := by
  funext k
  simp only [World.value, World.layers, World.language, World.setTag, if_neg hi]
  rfl

theorem updateTagged {σ : Schema V} {m m' : Manager V} {w : World V} {id : Nat} {t : Tag} {c : Option (Table V)} (h : Refines m w)
    (hu : Manager.updateBuffer σ { m with tags := set m.tags id t } id = some (m', c)) :
    Refines m' (w.setTag id (some (t.detected, t.user))) ∧
      (match m.buffers.lookup id with
        | some _ => Reports (w.value id) ((w.setTag id (some (t.detected, t.user))).value id) c
        | none => ∃ x, c = some x ∧ ∀ k, x.lookup k = (w.setTag id (some (t.detected, t.user))).value id k) := by
  obtain ⟨new, e1, e2, e3⟩ := updateBuffer_spec (h.base.setTag id t) hu
  have e2 : c = new.changesFrom (m.buffers.lookup id) := e2
  subst e1
  refine ⟨⟨(h.base.setTag id t).buffers _, h.unloaded, distinct_set h.distinct _ _, ?_, ?_⟩, ?_⟩
  · intro i
    show ((set m.buffers id new).lookup i).isSome = ((set m.tags id t).lookup i).isSome
    rw [lookup_set, lookup_set]
    split
    · rfl
    · exact h.same i
  · intro i c hc
    have hc : (set m.buffers id new).lookup i = some c := hc
    rw [lookup_set] at hc
    split at hc
    · rename_i hi; cases hc; rw [hi]; exact e3
    · rename_i hi
      intro k
      rw [value_setTag w id i _ hi]
      exact h.stored i c hc k
  · cases ho : m.buffers.lookup id with
    | some old =>
      simp only
      rw [e2, ho]
      have := stored_reports (old := old) e3
      rwa [show stackGet old.source = w.value id from funext (h.stored id old ho)] at this
    | none =>
      simp only
      rw [e2, ho]
      exact ⟨_, rfl, fun k => (lookup_collate _ k).trans (e3 k)⟩

theorem setTag_same {m : Manager V} {w : World V} {id : Nat} {t : Tag} (h : Refines m w) (hid : (m.tags.lookup id).isSome = true)
    (hv : ∀ k, (w.setTag id (some (t.detected, t.user))).value id k = w.value id k) : Refines { m with tags := set m.tags id t } (w.setTag id (some (t.detected, t.user))) := by
  refine ⟨h.base.setTag id t, h.unloaded, h.distinct, ?_, ?_⟩
  · intro i
    show (m.buffers.lookup i).isSome = ((set m.tags id t).lookup i).isSome
    rw [lookup_set, h.same]
    split
    · rename_i e; rw [e, hid]; rfl
    · rfl
  · intro i c hc k
    rw [h.stored i c hc k]
    by_cases hi : i = id
    · subst hi; exact (hv k).symm
    · rw [value_setTag w id i _ hi]

theorem reports_same {f g : Settings V} (h : ∀ k, f k = g k) : Reports f g none := ⟨fun k => by simp [h k], by simp⟩

theorem Valid.setTag {σ : Schema V} {w : World V} (h : w.Valid σ) (id : Nat) (tag : Option (String × Option String)) : (w.setTag id tag).Valid σ := ⟨h.defaults, h.user, h.langs⟩

end Config

end Xi
