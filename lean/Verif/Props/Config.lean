import Verif.Config.Langs

/-!
# C75: the settings of a buffer
-/

namespace Xi

open Config

variable {V : Type} [DecidableEq V]

/-- The settings a new manager stands for. -/
def Config.World.new (defaults : Settings V) : World V := ⟨defaults, fun _ _ => none, fun _ => none, fun _ => none, fun _ => none⟩

/-- C75: at the start nothing is set but the defaults. -/
theorem C75_new (defaults : Table V) : Refines (Manager.new defaults) (World.new (defaults.lookup ·)) := by
  have one : ∀ d p, (Manager.new defaults).configs.lookup d = some p → p = Pair.withBase (some defaults) ∧ d = .general := by
    intro d p hp
    simp only [Manager.new, lookup_cons_ite, List.lookup_nil] at hp
    split at hp
    · cases hp; exact ⟨rfl, by assumption⟩
    · cases hp
  refine ⟨⟨⟨⟨_, defaults, rfl, rfl, fun _ => rfl⟩, ?_, ?_, ?_, ?_, ?_⟩, ⟨List.nodup_nil, fun _ _ h => by cases h⟩, fun _ => rfl, fun _ => rfl, fun _ => rfl⟩, ?_, List.nodup_nil, fun _ => rfl, fun _ _ h => by cases h⟩
  · intro d p hp; rw [(one d p hp).1]; exact withBase_ok _
  · intro d p hp; rw [(one d p hp).1]; exact List.nodup_nil
  · intro d k
    show userOf _ d k = none
    unfold userOf
    cases hp : (Manager.new defaults).configs.lookup d with
    | none => rfl
    | some p => rw [(one d p hp).1]; rfl
  · intro i p hp; exact absurd (one _ p hp).2 (by simp)
  · intro i p hp; exact absurd (one _ p hp).2 (by simp)
  · intro n k _
    unfold baseOf
    cases hp : (Manager.new defaults).configs.lookup (.language n) with
    | none => rfl
    | some p => exact absurd (one _ p hp).2 (by simp)

/-- C75: the configuration that is stored for a buffer has, for every key, the value of the most important layer that has one: the user's
override for the buffer, the system's override for it, what the user set for its language, what the plugin of the language set, the
user's preferences, the defaults.  The table sent to a view is the same. -/
theorem C75_value {m : Manager V} {w : World V} (h : Refines m w) {id : Nat} {c : BufferConfig V} (hc : m.buffers.lookup id = some c) (k : String) :
    c.toTable.lookup k = w.value id k ∧ stackGet c.source k = w.value id k :=
  ⟨(lookup_collate c.source k).trans (h.stored id c hc k), h.stored id c hc k⟩

/- The full statement of C75 about reports is: every key whose value changes is in the report.  `Reports` leaves out the keys that have no
value any more (`C75_gone_refuted`), so the theorems about reports are partial.  New languages are not reported at all. -/

/-- C75: a table is put in place of what the user had set in a domain exactly if it is acceptable; what changes is reported for every
buffer, and nothing else; a table that is not acceptable changes nothing. -/
theorem C75_set_partial {σ : Schema V} {m m' : Manager V} {w : World V} {dom : Domain} {t : Table V} {r : Option (List (Nat × Table V))} (ht : Distinct t)
    (h : Refines m w) (hu : m.setUserConfig σ dom t = some (m', r)) :
    (¬ w.Accepts σ (t.lookup ·) ∧ m' = m ∧ r = none) ∨
    (w.Accepts σ (t.lookup ·) ∧ ∃ out, r = some out ∧ Refines m' (w.setUser dom (t.lookup ·)) ∧ ReportsAll w (w.setUser dom (t.lookup ·)) out) :=
  setUser_spec ht h hu

/-- C75: changes sent by the client: the keys that are not named keep their values, null removes a key. -/
theorem C75_modify_partial {σ : Schema V} {m m' : Manager V} {w : World V} {dom : Domain} {changes : Table V} {r : Option (List (Nat × Table V))}
    (h : Refines m w) (hu : (m.tableForUpdate σ dom changes).1.setUserConfig σ dom (m.tableForUpdate σ dom changes).2 = some (m', r)) :
    let t := World.modified σ.null (w.user dom) (changes.lookup ·)
    (¬ w.Accepts σ t ∧ Refines m' w ∧ r = none) ∨ (w.Accepts σ t ∧ ∃ out, r = some out ∧ Refines m' (w.setUser dom t) ∧ ReportsAll w (w.setUser dom t) out) := by
  intro t
  have hd : Distinct (m.tableForUpdate σ dom changes).2 := by
    show Distinct (changes.foldr (updateEntry σ.null) (((m.configs.lookup dom).getD (Pair.withBase none)).user.getD []))
    refine distinct_update _ ?_ _
    cases hp : m.configs.lookup dom with
    | none => exact List.nodup_nil
    | some p => exact h.base.tables.distinct dom p hp
  have ht : (fun k => (m.tableForUpdate σ dom changes).2.lookup k) = t := funext fun k => lookup_tableForUpdate h.base.tables dom changes k
  have h1 := tableForUpdate_refines (σ := σ) h dom changes
  have := setUser_spec hd h1 hu
  rw [ht] at this
  rcases this with ⟨a, b, c⟩ | c
  · exact .inl ⟨a, by rw [b]; exact h1, c⟩
  · exact .inr c

/-- C75: a new buffer gets the language of its path, and its settings are sent. -/
theorem C75_add {σ : Schema V} {m m' : Manager V} {w : World V} {id : Nat} {path : Option String} {t : Table V} (h : Refines m w)
    (hu : m.addBuffer σ id path = some (m', t)) :
    w.tags id = none ∧ Refines m' (w.setTag id (some ((path.bind w.ext).getD "Plain Text", none))) ∧
      ∀ k, t.lookup k = (w.setTag id (some ((path.bind w.ext).getD "Plain Text", none))).value id k := by
  unfold Manager.addBuffer at hu
  have he : m.languageForPath = w.ext := funext fun e => (h.base.ext e).symm
  have htag := h.tracked id
  have htg := h.base.tags id
  rw [he] at hu
  cases hid : m.tags.lookup id with
  | some x => rw [hid] at hu; cases hu
  | none =>
    rw [hid] at hu htg
    simp only [Option.isSome_none, Bool.false_eq_true, if_false, Option.pure_def, Option.bind_eq_bind, Option.bind_some] at hu
    cases hup : Manager.updateBuffer σ { m with tags := set m.tags id ⟨(path.bind w.ext).getD "Plain Text", none⟩ } id with
    | none => rw [hup] at hu; cases hu
    | some r =>
      obtain ⟨m1, c⟩ := r
      rw [hup] at hu
      obtain ⟨g1, g2⟩ := updateTagged h hup
      have hb : m.buffers.lookup id = none := by
        rw [← Option.not_isSome_iff_eq_none, h.same id, hid]; simp
      rw [hb] at g2
      obtain ⟨x, rfl, hx⟩ := g2
      cases hu
      exact ⟨htg, g1, hx⟩

/-- C75: a buffer that is saved under a new path gets the language of the path, unless the user has chosen one; what changes is reported. -/
theorem C75_path_partial {σ : Schema V} {m m' : Manager V} {w : World V} {id : Nat} {path : String} {c : Option (Table V)} (h : Refines m w)
    (hu : m.updatePath σ id path = some (m', c)) :
    ∃ detected chosen, w.tags id = some (detected, chosen) ∧ Refines m' (w.setTag id (some ((w.ext path).getD "", chosen))) ∧
      Reports (w.value id) ((w.setTag id (some ((w.ext path).getD "", chosen))).value id) c := by
  unfold Manager.updatePath at hu
  rw [← h.base.ext path] at hu
  cases hid : m.tags.lookup id with
  | none => rw [hid] at hu; cases hu
  | some t =>
    rw [hid] at hu
    refine ⟨t.detected, t.user, by rw [h.base.tags, hid]; rfl, ?_⟩
    simp only [Option.bind_eq_bind, Option.bind_some, Option.pure_def] at hu
    have hw : w.tags id = some (t.detected, t.user) := by rw [h.base.tags, hid]; rfl
    by_cases hc : (t.setDetected ((w.ext path).getD "")).2 = true
    · rw [if_pos hc] at hu
      obtain ⟨g1, g2⟩ := updateTagged h hu
      refine ⟨g1, ?_⟩
      have hb : (m.buffers.lookup id).isSome = true := by rw [h.same, hid]; rfl
      obtain ⟨old, ho⟩ := Option.isSome_iff_exists.1 hb
      rw [ho] at g2
      exact g2
    · rw [if_neg hc] at hu
      simp only [Tag.setDetected, Tag.resolve, bne_iff_ne, ne_eq, Decidable.not_not] at hc
      cases hu
      have hv : ∀ k, (w.setTag id (some ((w.ext path).getD "", t.user))).value id k = w.value id k := by
        intro k
        have : (w.setTag id (some ((w.ext path).getD "", t.user))).language id = w.language id := by
          unfold World.language
          rw [hw]
          simp only [World.setTag, if_true]
          rw [hc]
          rfl
        simp only [value_eq, this]
        rfl
      exact ⟨setTag_same (t := ⟨(w.ext path).getD "", t.user⟩) h (by rw [hid]; rfl) hv, reports_same fun k => (hv k).symm⟩

/-- C75: the user chooses a language; what changes is reported. -/
theorem C75_language_partial {σ : Schema V} {m m' : Manager V} {w : World V} {id : Nat} {lang : String} {c : Option (Table V)} (h : Refines m w)
    (hu : m.overrideLanguage σ id lang = some (m', c)) :
    ∃ detected chosen, w.tags id = some (detected, chosen) ∧ Refines m' (w.setTag id (some (detected, some lang))) ∧
      Reports (w.value id) ((w.setTag id (some (detected, some lang))).value id) c := by
  unfold Manager.overrideLanguage at hu
  cases hid : m.tags.lookup id with
  | none => rw [hid] at hu; cases hu
  | some t =>
    rw [hid] at hu
    refine ⟨t.detected, t.user, by rw [h.base.tags, hid]; rfl, ?_⟩
    simp only [Option.bind_eq_bind, Option.bind_some, Option.pure_def] at hu
    have hw : w.tags id = some (t.detected, t.user) := by rw [h.base.tags, hid]; rfl
    by_cases hc : (t.setUser (some lang)).2 = true
    · rw [if_pos hc] at hu
      obtain ⟨g1, g2⟩ := updateTagged h hu
      refine ⟨g1, ?_⟩
      have hb : (m.buffers.lookup id).isSome = true := by rw [h.same, hid]; rfl
      obtain ⟨old, ho⟩ := Option.isSome_iff_exists.1 hb
      rw [ho] at g2
      exact g2
    · rw [if_neg hc] at hu
      simp only [Tag.setUser, bne_iff_ne, ne_eq, Decidable.not_not] at hc
      cases hu
      have hv : ∀ k, (w.setTag id (some (t.detected, some lang))).value id k = w.value id k := by
        intro k
        have : (w.setTag id (some (t.detected, some lang))).language id = w.language id := by
          unfold World.language
          rw [hw, ← hc]
          simp only [World.setTag, if_true]
          rfl
        simp only [value_eq, this]
        rfl
      exact ⟨setTag_same (t := ⟨t.detected, some lang⟩) h (by rw [hid]; rfl) hv, reports_same fun k => (hv k).symm⟩

/-- C75: a buffer is closed. -/
theorem C75_remove {m m' : Manager V} {w : World V} {id : Nat} (h : Refines m w) (hu : m.removeBuffer id = some m') : Refines m' (w.setTag id none) := by
  unfold Manager.removeBuffer at hu
  cases hid : m.tags.lookup id with
  | none => rw [hid] at hu; cases hu
  | some t =>
    rw [hid] at hu
    cases hu
    refine ⟨⟨⟨h.base.tables.general, h.base.tables.ok, h.base.tables.distinct, h.base.tables.user, h.base.tables.sysBase, h.base.tables.userBase⟩, h.base.wf, h.base.langs, h.base.ext, ?_⟩, h.unloaded, distinct_unset h.distinct id, ?_, ?_⟩
    · intro i
      show (w.setTag id none).tags i = ((unset m.tags id).lookup i).map _
      rw [lookup_unset]
      simp only [World.setTag]
      split
      · rfl
      · exact h.base.tags i
    · intro i
      show ((unset m.buffers id).lookup i).isSome = ((unset m.tags id).lookup i).isSome
      rw [lookup_unset, lookup_unset]
      split
      · rfl
      · exact h.same i
    · intro i c hc k
      have hc : (unset m.buffers id).lookup i = some c := hc
      rw [lookup_unset] at hc
      split at hc
      · cases hc
      · rename_i hi
        rw [value_setTag w id i none hi]
        exact h.stored i c hc k

/-- C75: new languages: the settings of plugins that are gone are gone, what the user had set for a language stays, the files of the user
for the new languages are read. -/
theorem C75_languages {σ : Schema V} {files : String → Option (Table V)} {m m' : Manager V} {w : World V} {defs : List (LanguageDef V)}
    (hf : ∀ n t, files n = some t → Distinct t) (h : Refines m w) (hs : m.setLanguages σ files (Languages.new defs) = some m') :
    Refines m' (w.setLanguages σ defs fun n => (files n).map fun t k => t.lookup k) := setLanguages_spec hf h hs

/-! ## Panics -/

/-- C75: setting a table does not panic if no field in it is null, and leaves valid settings. -/
theorem C75_set_no_panic {σ : Schema V} {m : Manager V} {w : World V} {dom : Domain} {t : Table V} (ht : Distinct t) (h : Refines m w) (hv : w.Valid σ) (hn : NoNull σ (t.lookup ·)) :
    (∃ x, m.setUserConfig σ dom t = some x) ∧ (w.Accepts σ (t.lookup ·) → (w.setUser dom (t.lookup ·)).Valid σ) :=
  ⟨setUser_some ht h.base hv hn, fun ha => Valid.setUser hv dom ha hn⟩

theorem modified_noNull {σ : Schema V} {old changes : Settings V} (ho : NoNull σ old) : NoNull σ (World.modified σ.null old changes) := by
  intro k hk hc
  unfold World.modified at hc
  split at hc
  · exact ho k hk hc
  · split at hc
    · cases hc
    · rename_i hne; exact hne (Option.some.inj hc)

/-- C75: changes sent by the client never make it panic, whatever they are, if null is not acceptable for a field. -/
theorem C75_modify_no_panic {σ : Schema V} {m : Manager V} {w : World V} {dom : Domain} {changes : Table V} (hnull : ∀ k ∈ σ.fields, σ.ok k σ.null = false) (h : Refines m w) (hv : w.Valid σ) :
    let t := World.modified σ.null (w.user dom) (changes.lookup ·)
    (∃ x, (m.tableForUpdate σ dom changes).1.setUserConfig σ dom (m.tableForUpdate σ dom changes).2 = some x) ∧ (w.Accepts σ t → (w.setUser dom t).Valid σ) := by
  intro t
  have hd : Distinct (m.tableForUpdate σ dom changes).2 := by
    show Distinct (changes.foldr (updateEntry σ.null) (((m.configs.lookup dom).getD (Pair.withBase none)).user.getD []))
    refine distinct_update _ ?_ _
    cases hp : m.configs.lookup dom with
    | none => exact List.nodup_nil
    | some p => exact h.base.tables.distinct dom p hp
  have ht : (fun k => (m.tableForUpdate σ dom changes).2.lookup k) = t := funext fun k => lookup_tableForUpdate h.base.tables dom changes k
  have hn : NoNull σ t := modified_noNull fun k hk hc => by
    have := hv.user k hk dom _ hc
    rw [hnull k hk] at this
    cases this
  refine ⟨setUser_some hd (tableForUpdate_refines (σ := σ) h dom changes).base hv (by rw [ht]; exact hn), fun ha => Valid.setUser hv dom ha hn⟩

/-- C75: the functions about one buffer do not panic if the buffer is there (for a new one: if it is not there). -/
theorem C75_buffer_no_panic {σ : Schema V} {m : Manager V} {w : World V} {id : Nat} (h : Refines m w) (hv : w.Valid σ) :
    (w.tags id = none → ∀ path, ∃ x, m.addBuffer σ id path = some x) ∧
    ((w.tags id).isSome = true → (∀ path, ∃ x, m.updatePath σ id path = some x) ∧ (∀ lang, ∃ x, m.overrideLanguage σ id lang = some x) ∧ ∃ x, m.removeBuffer id = some x) ∧
    ∀ tag, (w.setTag id tag).Valid σ := by
  refine ⟨?_, ?_, fun tag => Valid.setTag hv id tag⟩
  · intro hid path
    have htag : m.tags.lookup id = none := by
      have := h.base.tags id
      rw [hid] at this
      cases hx : m.tags.lookup id with
      | none => rfl
      | some t => rw [hx] at this; cases this
    have hb : m.buffers.lookup id = none := by
      rw [← Option.not_isSome_iff_eq_none, h.same id, htag]; simp
    obtain ⟨⟨m1, c⟩, hx⟩ := updateBuffer_some (h.base.setTag id ⟨(path.bind m.languageForPath).getD "Plain Text", none⟩) (Valid.setTag hv id _) id
    have g := (updateTagged h hx).2
    rw [hb] at g
    obtain ⟨y, rfl, -⟩ := g
    refine ⟨(m1, y), ?_⟩
    unfold Manager.addBuffer
    simp only [htag, Option.isSome_none, Bool.false_eq_true, if_false, Option.pure_def, Option.bind_eq_bind, Option.bind_some, hx]
  · intro hid
    have htag : (m.tags.lookup id).isSome = true := by rwa [h.base.tags id, Option.isSome_map] at hid
    obtain ⟨t, ht⟩ := Option.isSome_iff_exists.1 htag
    refine ⟨fun path => ?_, fun lang => ?_, ?_⟩
    · unfold Manager.updatePath
      simp only [ht, Option.bind_eq_bind, Option.bind_some, Option.pure_def]
      by_cases hc : (t.setDetected ((m.languageForPath path).getD "")).2 = true
      · rw [if_pos hc]; exact updateBuffer_some (h.base.setTag id _) (Valid.setTag hv id _) id
      · rw [if_neg hc]; exact ⟨_, rfl⟩
    · unfold Manager.overrideLanguage
      simp only [ht, Option.bind_eq_bind, Option.bind_some, Option.pure_def]
      by_cases hc : (t.setUser (some lang)).2 = true
      · rw [if_pos hc]; exact updateBuffer_some (h.base.setTag id _) (Valid.setTag hv id _) id
      · rw [if_neg hc]; exact ⟨_, rfl⟩
    · unfold Manager.removeBuffer
      rw [ht]
      exact ⟨_, rfl⟩

/-- C75: new languages do not make it panic, if (this is missing in the code, see `C75_language_default_refuted`) the settings of their plugins are acceptable. -/
theorem C75_languages_no_panic_partial {σ : Schema V} {files : String → Option (Table V)} {m : Manager V} {w : World V} {defs : List (LanguageDef V)}
    (hf : ∀ n t, files n = some t → Distinct t ∧ NoNull σ (t.lookup ·)) (h : Refines m w) (hv : w.Valid σ) (hd : ∀ d ∈ defs, σ.Good ((d.defaults.getD []).lookup ·)) :
    (∃ m', m.setLanguages σ files (Languages.new defs) = some m') ∧ (w.setLanguages σ defs fun n => (files n).map fun t k => t.lookup k).Valid σ :=
  ⟨setLanguages_some hf h hv hd, setLanguages_valid hv hd (by
    intro n t ht
    obtain ⟨t', h1, rfl⟩ := Option.map_eq_some_iff.1 ht
    exact (hf n t' h1).2)⟩

/-- C75: an override for one buffer changes the settings of this buffer only, so at most one change is reported (the assertion in
`detect_whitespace`, tabs.rs:639-643). -/
theorem C75_single {σ : Schema V} {m m' : Manager V} {w : World V} {id : Nat} {t : Table V} {out : List (Nat × Table V)} (ht : Distinct t)
    (h : Refines m w) (hu : m.setUserConfig σ (.sysOverride id) t = some (m', some out)) : out = [] ∨ ∃ c, out = [(id, c)] := by
  rcases setUser_spec ht h hu with ⟨-, -, h3⟩ | ⟨-, out', h3, -, h5, h6⟩
  · cases h3
  · cases h3
    have hk : ∀ i ∈ out.map (·.1), i = id := by
      intro i hi
      rw [keys_iff] at hi
      apply Decidable.byContradiction
      intro hne
      have h6 := h6 i
      split at h6
      · have hv : (w.setUser (.sysOverride id) (t.lookup ·)).value i = w.value i := by
          funext k
          have hl : (w.setUser (.sysOverride id) (t.lookup ·)).language i = w.language i := rfl
          rw [value_eq, value_eq, hl]
          simp [World.setUser, hne]
        rw [hv] at h6
        obtain ⟨c, hc⟩ := Option.isSome_iff_exists.1 hi
        rw [hc] at h6
        have : c = [] := by
          cases c with
          | nil => rfl
          | cons e c =>
            have := h6.1 e.1
            rw [Option.getD_some, lookup_cons_ite, if_pos rfl, if_pos rfl] at this
            cases this
        exact h6.2 (by rw [this])
      · rw [h6] at hi; cases hi
    cases out with
    | nil => exact .inl rfl
    | cons e out =>
      right
      refine ⟨e.2, ?_⟩
      have h1 := hk e.1 (by simp)
      cases out with
      | nil => rw [← h1]
      | cons e2 out =>
        have h2 := hk e2.1 (by simp)
        simp only [Distinct, List.map_cons, List.nodup_cons, List.mem_cons, not_or] at h5
        exact absurd (h1.trans h2.symm) h5.1.1

/-! ## Whole runs -/

/-- The operations. -/
inductive Config.Op (V : Type) where
  | set (dom : Domain) (t : Table V)
  | modify (dom : Domain) (changes : Table V)
  | add (id : Nat) (path : Option String)
  | save (id : Nat) (path : String)
  | choose (id : Nat) (lang : String)
  | remove (id : Nat)
  | languages (defs : List (LanguageDef V)) (files : String → Option (Table V))

/-- An operation on the manager. -/
def Config.Op.run (σ : Schema V) (m : Manager V) : Op V → Option (Manager V)
  | .set dom t => (m.setUserConfig σ dom t).map (·.1)
  | .modify dom changes => ((m.tableForUpdate σ dom changes).1.setUserConfig σ dom (m.tableForUpdate σ dom changes).2).map (·.1)
  | .add id path => (m.addBuffer σ id path).map (·.1)
  | .save id path => (m.updatePath σ id path).map (·.1)
  | .choose id lang => (m.overrideLanguage σ id lang).map (·.1)
  | .remove id => m.removeBuffer id
  | .languages defs files => m.setLanguages σ files (Languages.new defs)

open Classical in
/-- What an operation should do. -/
noncomputable def Config.Op.does (σ : Schema V) (w : World V) : Op V → World V
  | .set dom t => if w.Accepts σ (t.lookup ·) then w.setUser dom (t.lookup ·) else w
  | .modify dom changes =>
    let t := World.modified σ.null (w.user dom) (changes.lookup ·)
    if w.Accepts σ t then w.setUser dom t else w
  | .add id path => w.setTag id (some ((path.bind w.ext).getD "Plain Text", none))
  | .save id path => w.setTag id ((w.tags id).map fun t => ((w.ext path).getD "", t.2))
  | .choose id lang => w.setTag id ((w.tags id).map fun t => (t.1, some lang))
  | .remove id => w.setTag id none
  | .languages defs files => w.setLanguages σ defs fun n => (files n).map fun t k => t.lookup k

/-- What may be done: buffers are added once, and only those that are there are used; tables from files have no null and every key
once; the plugins' settings for languages are acceptable. -/
def Config.Op.May (σ : Schema V) (w : World V) : Op V → Prop
  | .set _ t => Distinct t ∧ NoNull σ (t.lookup ·)
  | .modify _ _ => True
  | .add id _ => w.tags id = none
  | .save id _ => (w.tags id).isSome = true
  | .choose id _ => (w.tags id).isSome = true
  | .remove id => (w.tags id).isSome = true
  | .languages defs files => (∀ n t, files n = some t → Distinct t ∧ NoNull σ (t.lookup ·)) ∧ ∀ d ∈ defs, σ.Good ((d.defaults.getD []).lookup ·)

/-- All operations may be done when it is their turn. -/
def Config.MayAll (σ : Schema V) : World V → List (Op V) → Prop
  | _, [] => True
  | w, op :: ops => op.May σ w ∧ MayAll σ (op.does σ w) ops

theorem Config.run_one {σ : Schema V} {m : Manager V} {w : World V} (hnull : ∀ k ∈ σ.fields, σ.ok k σ.null = false) (h : Refines m w) (hv : w.Valid σ) (op : Op V) (hm : op.May σ w) :
    ∃ m', op.run σ m = some m' ∧ Refines m' (op.does σ w) ∧ (op.does σ w).Valid σ := by
  cases op with
  | set dom t =>
    obtain ⟨⟨x, hx⟩, hval⟩ := C75_set_no_panic (dom := dom) hm.1 h hv hm.2
    refine ⟨x.1, by simp only [Op.run, hx]; rfl, ?_⟩
    rcases C75_set_partial hm.1 h hx with ⟨h1, h2, -⟩ | ⟨h1, out, -, h3, -⟩
    · rw [Op.does, if_neg h1, h2]; exact ⟨h, hv⟩
    · rw [Op.does, if_pos h1]; exact ⟨h3, hval h1⟩
  | modify dom changes =>
    obtain ⟨⟨x, hx⟩, hval⟩ := C75_modify_no_panic (dom := dom) (changes := changes) hnull h hv
    refine ⟨x.1, by simp only [Op.run, hx]; rfl, ?_⟩
    simp only [Op.does]
    rcases C75_modify_partial h hx with ⟨h1, h2, -⟩ | ⟨h1, out, -, h3, -⟩
    · rw [if_neg h1]; exact ⟨h2, hv⟩
    · rw [if_pos h1]; exact ⟨h3, hval h1⟩
  | add id path =>
    obtain ⟨p1, -, p3⟩ := C75_buffer_no_panic (id := id) h hv
    obtain ⟨x, hx⟩ := p1 hm path
    exact ⟨x.1, by simp only [Op.run, hx]; rfl, (C75_add h hx).2.1, p3 _⟩
  | save id path =>
    obtain ⟨-, p2, p3⟩ := C75_buffer_no_panic (id := id) h hv
    obtain ⟨x, hx⟩ := (p2 hm).1 path
    obtain ⟨d, c, h1, h2, -⟩ := C75_path_partial h hx
    exact ⟨x.1, by simp only [Op.run, hx]; rfl, by simp only [Op.does, h1, Option.map_some]; exact h2, p3 _⟩
  | choose id lang =>
    obtain ⟨-, p2, p3⟩ := C75_buffer_no_panic (id := id) h hv
    obtain ⟨x, hx⟩ := (p2 hm).2.1 lang
    obtain ⟨d, c, h1, h2, -⟩ := C75_language_partial h hx
    exact ⟨x.1, by simp only [Op.run, hx]; rfl, by simp only [Op.does, h1, Option.map_some]; exact h2, p3 _⟩
  | remove id =>
    obtain ⟨-, p2, p3⟩ := C75_buffer_no_panic (id := id) h hv
    obtain ⟨x, hx⟩ := (p2 hm).2.2
    exact ⟨x, hx, C75_remove h hx, p3 _⟩
  | languages defs files =>
    obtain ⟨⟨x, hx⟩, hval⟩ := C75_languages_no_panic_partial hm.1 h hv hm.2
    exact ⟨x, hx, C75_languages (fun n t ht => (hm.1 n t ht).1) h hx, hval⟩

theorem does_set_tags (σ : Schema V) (w : World V) (dom : Domain) (t : Table V) : ((Op.set dom t).does σ w).tags = w.tags := by
  simp only [Op.does]
  split <;> rfl

theorem does_modify_tags (σ : Schema V) (w : World V) (dom : Domain) (t : Table V) : ((Op.modify dom t).does σ w).tags = w.tags := by
  simp only [Op.does]
  split <;> rfl

theorem does_choose_tags (σ : Schema V) (w : World V) (id : Nat) (lang : String) : ((Op.choose id lang).does σ w).tags id = (w.tags id).map fun t => (t.1, some lang) := by
  simp [Op.does, World.setTag]

instance {K A : Type} [DecidableEq K] (m : Map K A) : Decidable (Distinct m) := inferInstanceAs (Decidable (List.Nodup _))

/-- C75: any sequence of operations, from the start, runs without panic, and leaves for every buffer the settings that the layers give. -/
theorem C75_run {σ : Schema V} (hnull : ∀ k ∈ σ.fields, σ.ok k σ.null = false) : ∀ (ops : List (Op V)) {m : Manager V} {w : World V}, Refines m w → w.Valid σ → MayAll σ w ops →
    ∃ m', ops.foldlM (Op.run σ) m = some m' ∧ Refines m' (ops.foldl (Op.does σ) w) ∧ (ops.foldl (Op.does σ) w).Valid σ
  | [], m, w, h, hv, _ => ⟨m, rfl, h, hv⟩
  | op :: ops, m, w, h, hv, hm => by
    obtain ⟨m1, h1, h2, h3⟩ := run_one hnull h hv op hm.1
    obtain ⟨m2, g1, g2, g3⟩ := C75_run hnull ops h2 h3 hm.2
    exact ⟨m2, by rw [List.foldlM_cons, h1]; exact g1, g2, g3⟩

/-! ## The fields of `BufferItems` -/

/-- The kinds of values that occur. -/
inductive Config.Val where
  | null
  | bool (b : Bool)
  | num (n : Int)
  | str (s : String)
  | pairs (l : List (String × String))
deriving DecidableEq

/-- `BufferItems`, config.rs:172-189, and `deserialize_tab_size`, config.rs:157-170.  Of numbers only the whole ones are here, without
their upper bounds. -/
def Config.bufferItems : Schema Val where
  null := .null
  fields := ["line_ending", "tab_size", "translate_tabs_to_spaces", "use_tab_stops", "font_face", "font_size", "auto_indent", "scroll_past_end",
    "wrap_width", "word_wrap", "autodetect_whitespace", "surrounding_pairs", "save_with_newline"]
  ok k v := match v with
    | .null => false
    | .bool _ => ["translate_tabs_to_spaces", "use_tab_stops", "auto_indent", "scroll_past_end", "word_wrap", "autodetect_whitespace", "save_with_newline"].contains k
    | .num n => if k = "tab_size" then decide (1 ≤ n) else if k = "wrap_width" then decide (0 ≤ n) else k = "font_size"
    | .str _ => ["line_ending", "font_face"].contains k
    | .pairs _ => k = "surrounding_pairs"

/-- assets/defaults.toml. -/
def Config.builtIn : Table Val :=
  [("tab_size", .num 4), ("translate_tabs_to_spaces", .bool true), ("use_tab_stops", .bool true), ("plugin_search_path", .pairs []), ("font_face", .str "InconsolataGo"),
    ("font_size", .num 14), ("line_ending", .str "\n"), ("auto_indent", .bool true), ("scroll_past_end", .bool false), ("wrap_width", .num 0), ("word_wrap", .bool false),
    ("autodetect_whitespace", .bool true), ("surrounding_pairs", .pairs [("\"", "\""), ("'", "'"), ("{", "}"), ("[", "]")]), ("save_with_newline", .bool true)]

theorem bufferItems_null : ∀ k ∈ bufferItems.fields, bufferItems.ok k bufferItems.null = false := fun _ _ => rfl

/-- C75: the real fields and defaults are a good start. -/
theorem C75_defaults_valid : (World.new (builtIn.lookup ·)).Valid bufferItems := by
  refine ⟨fun k hk => ?_, fun k _ d v h => (nomatch h), fun k _ n s v h => (nomatch h)⟩
  have : ∀ k ∈ bufferItems.fields, ((builtIn.lookup k).map (bufferItems.ok k)) = some true := by decide +kernel
  have := this k hk
  cases hb : builtIn.lookup k with
  | none => rw [hb] at this; cases this
  | some v => rw [hb] at this; exact ⟨v, hb, by simpa using this⟩

/-- C75: what the client sends in place of the settings, from the start and with the real fields, never makes the manager panic. -/
theorem C75_from_start (ops : List (Op Val)) (hm : MayAll bufferItems (World.new (builtIn.lookup ·)) ops) :
    ∃ m, ops.foldlM (Op.run bufferItems) (Manager.new builtIn) = some m ∧ Refines m (ops.foldl (Op.does bufferItems) (World.new (builtIn.lookup ·))) := by
  obtain ⟨m, h1, h2, -⟩ := C75_run bufferItems_null ops (C75_new builtIn) C75_defaults_valid hm
  exact ⟨m, h1, h2⟩

/-- What is stored for a key after some operations. -/
def Config.after (ops : List (Op Val)) (id : Nat) (k : String) : Option Val :=
  ((ops.foldlM (Op.run bufferItems) (Manager.new builtIn)).bind fun m => (m.buffers.lookup id).map fun c => c.toTable.lookup k).join

/-- Two languages. -/
def Config.exampleLanguages : List (LanguageDef Val) := [⟨"Rust", ["rs"], some [("tab_size", .num 8)]⟩, ⟨"Makefile", ["mk", "Makefile"], some [("translate_tabs_to_spaces", .bool false)]⟩]

/-- A run that may be done, with a file of the user, two buffers, a change by the client, a language chosen, and a language gone. -/
def Config.exampleOps : List (Op Val) :=
  [.languages exampleLanguages fun n => if n = "Rust" then some [("wrap_width", .num 80)] else none,
    .add 1 (some "rs"), .add 2 none, .modify .general [("font_size", .num 12), ("tab_size", .num 3)], .choose 2 "Makefile", .set (.sysOverride 1) [("line_ending", .str "\r\n")],
    .modify (.userOverride 2) [("tab_size", .num 0)], .save 2 "rs"]

example : MayAll bufferItems (World.new (builtIn.lookup ·)) exampleOps := by
  refine ⟨⟨?_, ?_⟩, rfl, rfl, trivial, ?_, ⟨by decide +kernel, ?_⟩, trivial, ?_, trivial⟩
  · intro n t ht
    simp only at ht
    split at ht
    · cases ht
      exact ⟨by decide +kernel, fun k hk h => by
        simp only [lookup_cons_ite, List.lookup_nil] at h
        split at h <;> cases h⟩
    · cases ht
  · intro d hd k hk v hv
    rcases List.mem_cons.1 hd with rfl | hd
    · simp only [Option.getD_some, lookup_cons_ite, List.lookup_nil] at hv
      split at hv
      · rename_i e; subst e; cases hv; decide +kernel
      · cases hv
    · rcases List.mem_cons.1 hd with rfl | hd
      · simp only [Option.getD_some, lookup_cons_ite, List.lookup_nil] at hv
        split at hv
        · rename_i e; subst e; cases hv; decide +kernel
        · cases hv
      · cases hd
  · simp only [Op.May, does_modify_tags]
    rfl
  · intro k hk h
    simp only [lookup_cons_ite, List.lookup_nil] at h
    split at h <;> cases h
  · simp only [Op.May, does_modify_tags, does_set_tags, does_choose_tags]
    rfl

example : (Config.after exampleOps 1 "tab_size", Config.after exampleOps 1 "wrap_width", Config.after exampleOps 1 "line_ending", Config.after exampleOps 1 "font_size") =
    (some (.num 8), some (.num 80), some (.str "\r\n"), some (.num 12)) := by decide +kernel

example : (Config.after exampleOps 2 "tab_size", Config.after exampleOps 2 "translate_tabs_to_spaces", Config.after exampleOps 2 "wrap_width", Config.after exampleOps 2 "line_ending") =
    (some (.num 3), some (.bool false), some (.num 0), some (.str "\n")) := by decide +kernel

example : ((exampleOps.foldlM (Op.run bufferItems) (Manager.new builtIn)).bind fun m => (m.setUserConfig bufferItems (.language "Rust") [("font_size", .num 9)]).map (·.2)) =
    some (some [(1, [("wrap_width", .num 0), ("font_size", .num 9)])]) := by decide +kernel

/-! ## What does not hold -/

/-- C75 refuted: a setting that is gone is not reported.  The key `theme` is in no default; the client sets it, is told so, and removes
it: the settings of the buffer change, and nobody is told. -/
theorem C75_gone_refuted :
    let m0 := (Config.Op.run bufferItems (Manager.new builtIn) (.add 1 none))
    let r1 := m0.bind fun m => m.setUserConfig bufferItems .general [("theme", .str "dark")]
    let r2 := r1.bind fun r => r.1.setUserConfig bufferItems .general []
    r1.map (·.2) = some (some [(1, [("theme", .str "dark")])]) ∧ (r1.bind fun r => (r.1.buffers.lookup 1).bind fun c => c.toTable.lookup "theme") = some (.str "dark") ∧
      r2.map (·.2) = some (some []) ∧ (r2.bind fun r => (r.1.buffers.lookup 1).bind fun c => c.toTable.lookup "theme") = none := by
  refine ⟨?_, ?_, ?_, ?_⟩ <;> decide +kernel

/-- C75 refuted: the settings that come with the plugin of a language are not checked.  A plugin that sets a tab size of 0 for its
language makes the editor panic when a file of the language is opened. -/
theorem C75_language_default_refuted :
    ((Config.Op.run bufferItems (Manager.new builtIn) (.languages [⟨"Rust", ["rs"], some [("tab_size", .num 0)]⟩] fun _ => none)).map fun m =>
      ((Config.Op.run bufferItems m (.add 1 none)).isSome, (Config.Op.run bufferItems m (.add 2 (some "rs"))).isSome)) = some (true, false) := by decide +kernel

/-- C75 refuted: whether null is acceptable.  A table with null for a field is accepted, and then there are no settings to be had for
any buffer. -/
theorem C75_null_refuted :
    ((Manager.new builtIn).checkTable bufferItems [("tab_size", .null)], ((Config.Op.run bufferItems (Manager.new builtIn) (.add 1 none)).bind fun m =>
      m.setUserConfig bufferItems .general [("tab_size", .null)]).isSome) = (some true, false) := by decide +kernel

/-- C75 refuted: a file gets the same language whether it is opened or saved under its name.  With a name that belongs to no language an
opened buffer is "Plain Text", a saved one has no language, so that settings for "Plain Text" are for the first one only. -/
theorem C75_plain_text_refuted :
    (Config.after [.languages [⟨"Plain Text", ["txt"], none⟩] fun _ => some [("word_wrap", .bool true)], .add 1 (some "log"), .add 2 none, .save 2 "log"] 1 "word_wrap",
      Config.after [.languages [⟨"Plain Text", ["txt"], none⟩] fun _ => some [("word_wrap", .bool true)], .add 1 (some "log"), .add 2 none, .save 2 "log"] 2 "word_wrap") =
    (some (.bool true), some (.bool false)) := by decide +kernel

/-! ## The settings of a buffer are always good -/

/-- The settings of every buffer have every field, with a value it accepts. -/
def Config.AllGood (σ : Schema V) (m : Manager V) : Prop :=
  ∀ id c, m.buffers.lookup id = some c → ∀ k ∈ σ.fields, ∃ v, c.toTable.lookup k = some v ∧ σ.ok k v = true

theorem Config.AllGood.same {σ : Schema V} {m m' : Manager V} (h : AllGood σ m) (e : m'.buffers = m.buffers) : AllGood σ m' := by
  intro id c hc
  rw [e] at hc
  exact h id c hc

theorem Config.updateBuffer_good {σ : Schema V} {m m' : Manager V} {id : Nat} {c : Option (Table V)} (h : AllGood σ m) (hu : m.updateBuffer σ id = some (m', c)) : AllGood σ m' := by
  rw [Manager.updateBuffer] at hu
  obtain ⟨new, hg, hu⟩ := Option.bind_eq_some_iff.mp hu
  simp only [pure, Option.some.injEq, Prod.mk.injEq] at hu
  obtain ⟨rfl, -⟩ := hu
  intro id' c' hc k hk
  simp only [lookup_set] at hc
  split at hc
  · cases hc
    rw [Manager.generate, intoConfig] at hg
    split at hg
    · rename_i ha
      cases hg
      have := List.all_eq_true.mp ha k hk
      rw [BufferConfig.toTable]
      split at this
      · rename_i v hv
        exact ⟨v, hv, this⟩
      · cases this
    · cases hg
  · exact h id' c' hc k hk

theorem Config.updateLoop_good {σ : Schema V} : ∀ (ks : List Nat) {m m' : Manager V} {out : List (Nat × Table V)}, AllGood σ m → Manager.updateLoop σ ks m = some (m', out) → AllGood σ m'
  | [], _, _, _, h, hu => by cases hu; exact h
  | k :: ks, m, m', out, h, hu => by
    rw [Manager.updateLoop] at hu
    obtain ⟨⟨m1, c⟩, h1, hu⟩ := Option.bind_eq_some_iff.mp hu
    obtain ⟨⟨m2, out'⟩, h2, hu⟩ := Option.bind_eq_some_iff.mp hu
    simp only [pure, Option.some.injEq, Prod.mk.injEq] at hu
    obtain ⟨rfl, -⟩ := hu
    exact updateLoop_good ks (updateBuffer_good h h1) h2

theorem Config.setUserConfig_good {σ : Schema V} {m m' : Manager V} {dom : Domain} {t : Table V} {r : Option (List (Nat × Table V))} (h : AllGood σ m)
    (hu : m.setUserConfig σ dom t = some (m', r)) : AllGood σ m' := by
  rw [Manager.setUserConfig] at hu
  obtain ⟨b, -, hu⟩ := Option.bind_eq_some_iff.mp hu
  split at hu
  · obtain ⟨⟨m1, out⟩, h1, hu⟩ := Option.bind_eq_some_iff.mp hu
    simp only [pure, Option.some.injEq, Prod.mk.injEq] at hu
    obtain ⟨rfl, -⟩ := hu
    exact updateLoop_good _ (by exact h.same rfl) h1
  · simp only [pure, Option.some.injEq, Prod.mk.injEq] at hu
    obtain ⟨rfl, -⟩ := hu
    exact h

theorem Config.setLanguage_good {σ : Schema V} {files : String → Option (Table V)} : ∀ (ls : List (LanguageDef V)) {m m' : Manager V}, AllGood σ m →
    ls.foldlM (Manager.setLanguage σ files) m = some m' → AllGood σ m'
  | [], _, _, h, hu => by cases hu; exact h
  | l :: ls, m, m', h, hu => by
    rw [List.foldlM_cons] at hu
    obtain ⟨m1, h1, hu⟩ := Option.bind_eq_some_iff.mp hu
    refine setLanguage_good ls ?_ hu
    rw [Manager.setLanguage] at h1
    split at h1
    · obtain ⟨⟨m2, r⟩, h2, h1⟩ := Option.bind_eq_some_iff.mp h1
      cases h1
      exact setUserConfig_good (by exact h.same rfl) h2
    · cases h1
      exact h

theorem Config.Op.run_good {σ : Schema V} {m m' : Manager V} (op : Op V) (h : AllGood σ m) (hu : op.run σ m = some m') : AllGood σ m' := by
  cases op with
  | set dom t =>
    obtain ⟨⟨m1, r⟩, h1, rfl⟩ := Option.map_eq_some_iff.mp hu
    exact setUserConfig_good h h1
  | modify dom changes =>
    obtain ⟨⟨m1, r⟩, h1, rfl⟩ := Option.map_eq_some_iff.mp hu
    exact setUserConfig_good (by exact h.same rfl) h1
  | add id path =>
    obtain ⟨⟨m1, r⟩, h1, rfl⟩ := Option.map_eq_some_iff.mp hu
    rw [Manager.addBuffer] at h1
    dsimp only at h1
    split at h1
    · cases h1
    · obtain ⟨-, -, h1⟩ := Option.bind_eq_some_iff.mp h1
      obtain ⟨⟨m2, c⟩, h2, h1⟩ := Option.bind_eq_some_iff.mp h1
      obtain ⟨c', -, h1⟩ := Option.bind_eq_some_iff.mp h1
      cases h1
      exact updateBuffer_good (by exact h.same rfl) h2
  | save id path =>
    obtain ⟨⟨m1, r⟩, h1, rfl⟩ := Option.map_eq_some_iff.mp hu
    rw [Manager.updatePath] at h1
    obtain ⟨tag, -, h1⟩ := Option.bind_eq_some_iff.mp h1
    dsimp only at h1
    split at h1
    · exact updateBuffer_good (by exact h.same rfl) h1
    · cases h1
      exact h
  | choose id lang =>
    obtain ⟨⟨m1, r⟩, h1, rfl⟩ := Option.map_eq_some_iff.mp hu
    rw [Manager.overrideLanguage] at h1
    obtain ⟨tag, -, h1⟩ := Option.bind_eq_some_iff.mp h1
    dsimp only at h1
    split at h1
    · exact updateBuffer_good (by exact h.same rfl) h1
    · cases h1
      exact h
  | remove id =>
    rw [Op.run, Manager.removeBuffer] at hu
    obtain ⟨-, -, hu⟩ := Option.bind_eq_some_iff.mp hu
    cases hu
    intro id' c hc
    simp only [lookup_unset] at hc
    split at hc
    · cases hc
    · exact h id' c hc
  | languages defs files =>
    rw [Op.run, Manager.setLanguages] at hu
    obtain ⟨m1, h1, hu⟩ := Option.bind_eq_some_iff.mp hu
    obtain ⟨⟨m2, out⟩, h2, hu⟩ := Option.bind_eq_some_iff.mp hu
    cases hu
    exact updateLoop_good _ (by exact (setLanguage_good _ (by exact h.same rfl) h1).same rfl) h2

/-- C75: whatever is done, and in whatever order, as long as the manager has not panicked the settings of every buffer have every field,
with a value it accepts. -/
theorem C75_always_good {σ : Schema V} (defaults : Table V) (ops : List (Op V)) {m : Manager V} (h : ops.foldlM (Op.run σ) (Manager.new defaults) = some m) : AllGood σ m := by
  suffices ∀ (ops : List (Op V)) {m0 : Manager V}, AllGood σ m0 → ops.foldlM (Op.run σ) m0 = some m → AllGood σ m from
    this ops (fun _ _ h => by simp [Manager.new] at h) h
  intro ops
  induction ops with
  | nil => intro m0 h0 h; cases h; exact h0
  | cons op ops ih =>
    intro m0 h0 h
    rw [List.foldlM_cons] at h
    obtain ⟨m1, h1, h⟩ := Option.bind_eq_some_iff.mp h
    exact ih (op.run_good h0 h1) h

/-- **C46, C92.** The tab size a buffer is edited with is a number above 0. -/
theorem C46_tab_size (ops : List (Op Val)) {m : Manager Val} (h : ops.foldlM (Op.run bufferItems) (Manager.new builtIn) = some m) (id : Nat) {c : BufferConfig Val}
    (hc : m.buffers.lookup id = some c) : ∃ n : Int, 0 < n ∧ c.toTable.lookup "tab_size" = some (.num n) := by
  obtain ⟨v, hv, hok⟩ := C75_always_good builtIn ops h id c hc "tab_size" (by decide +kernel)
  cases v with
  | num n =>
    refine ⟨n, ?_, hv⟩
    simp [bufferItems] at hok
    omega
  | null => cases hok
  | bool b => revert hok; simp [bufferItems]
  | str s => revert hok; simp [bufferItems]
  | pairs l => revert hok; simp [bufferItems]

/-- The hypotheses hold after a run with languages, several buffers and settings. -/
example : Config.after exampleOps 1 "tab_size" = some (.num 8) := by decide +kernel

end Xi
