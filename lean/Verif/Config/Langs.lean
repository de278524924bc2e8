import Verif.Config.Ops

/-!
# New languages
-/

namespace Xi

namespace Config

set_option linter.unusedSectionVars false

variable {V : Type} [DecidableEq V]

/-! ## The collection of languages -/

theorem lookup_foldl_set {A : Type} (d : A) : ∀ (es : List String) (m : Map String A) (e : String),
    (es.foldl (fun m e => set m e d) m).lookup e = if e ∈ es then some d else m.lookup e
  | [], m, e => by simp
  | a :: es, m, e => by
    rw [List.foldl_cons, lookup_foldl_set d es, lookup_set]
    by_cases h1 : e ∈ es
    · simp [h1]
    · by_cases h2 : e = a <;> simp [h1, h2]

theorem new_cons (l : List (LanguageDef V)) (d : LanguageDef V) : Languages.new (d :: l).reverse = (Languages.new l.reverse).add d := by
  unfold Languages.new
  rw [List.reverse_cons, List.foldl_append]
  rfl

theorem new_named : ∀ (l : List (LanguageDef V)) (n : String), (Languages.new l.reverse).named.lookup n = l.find? (·.name = n)
  | [], n => rfl
  | d :: l, n => by
    rw [new_cons]
    show (set (Languages.new l.reverse).named d.name d).lookup n = _
    rw [lookup_set, List.find?_cons, new_named l n]
    by_cases h : n = d.name
    · subst h; simp
    · rw [if_neg h, show decide (d.name = n) = false by simpa using Ne.symm h]

theorem new_ext : ∀ (l : List (LanguageDef V)) (e : String), (Languages.new l.reverse).extensions.lookup e = l.find? (e ∈ ·.extensions)
  | [], e => rfl
  | d :: l, e => by
    rw [new_cons]
    show (d.extensions.foldl (fun m e => set m e d) (Languages.new l.reverse).extensions).lookup e = _
    rw [lookup_foldl_set, List.find?_cons, new_ext l e]
    by_cases h : e ∈ d.extensions
    · simp [h]
    · rw [if_neg h, show decide (e ∈ d.extensions) = false by simpa using h]

theorem new_wf : ∀ (l : List (LanguageDef V)), (Languages.new l.reverse).WF
  | [] => ⟨by simp [Languages.new, Distinct], fun n d h => by cases h⟩
  | d :: l => by
    refine ⟨?_, ?_⟩
    · rw [new_cons]
      exact distinct_set (new_wf l).distinct _ _
    · intro n d' h
      rw [new_named] at h
      simpa using List.find?_some h

/-! ## Updating changes the stored configurations only -/

theorem updateLoop_frame {σ : Schema V} : ∀ (ks : List Nat) {m m' : Manager V} {out : List (Nat × Table V)}, Distinct m.buffers →
    Manager.updateLoop σ ks m = some (m', out) →
    ∃ b, m' = { m with buffers := b } ∧ Distinct b ∧ ∀ i, (b.lookup i).isSome = ((m.buffers.lookup i).isSome || decide (i ∈ ks))
  | [], m, m', out, hd, hu => by
    cases hu
    exact ⟨m.buffers, rfl, hd, by simp⟩
  | k :: ks, m, m', out, hd, hu => by
    unfold Manager.updateLoop Manager.updateBuffer at hu
    cases h1 : m.generate σ k with
    | none => rw [h1] at hu; cases hu
    | some new =>
      rw [h1] at hu
      simp only [Option.bind_eq_bind, Option.bind_some, Option.pure_def] at hu
      cases h2 : Manager.updateLoop σ ks { m with buffers := set m.buffers k new } with
      | none => rw [h2] at hu; cases hu
      | some r =>
        rw [h2] at hu
        obtain ⟨m2, out2⟩ := r
        simp only [Option.bind_some, Option.some.injEq, Prod.mk.injEq] at hu
        obtain ⟨rfl, -⟩ := hu
        obtain ⟨b, f1, f2, f3⟩ := updateLoop_frame ks (distinct_set hd k new) h2
        refine ⟨b, f1, f2, fun i => ?_⟩
        have f3 : ∀ i, (b.lookup i).isSome = (((set m.buffers k new).lookup i).isSome || decide (i ∈ ks)) := f3
        rw [f3, lookup_set]
        by_cases hi : i = k <;> simp [hi]

theorem updateAll_frame {σ : Schema V} {m m' : Manager V} {out : List (Nat × Table V)} (hd : Distinct m.buffers) (hu : m.updateAll σ = some (m', out)) :
    ∃ b, m' = { m with buffers := b } ∧ Distinct b ∧ ∀ i, (b.lookup i).isSome = (m.buffers.lookup i).isSome := by
  obtain ⟨b, h1, h2, h3⟩ := updateLoop_frame _ hd hu
  refine ⟨b, h1, h2, fun i => ?_⟩
  rw [h3, Bool.eq_iff_iff, Bool.or_eq_true, decide_eq_true_iff]
  constructor
  · rintro (h | h)
    · exact h
    · exact keys_iff.1 h
  · exact .inl

/-! ## Basic settings of languages -/

theorem newWithBase_ok (p : Pair V) (b : Option (Table V)) : (p.newWithBase b).Ok := rebuild_ok _

theorem newWithBase_user (p : Pair V) (b : Option (Table V)) : (p.newWithBase b).user = p.user := rfl

theorem newWithBase_base (p : Pair V) (b : Option (Table V)) : (p.newWithBase b).base = b := rfl

theorem dropBase_tables {configs : Map Domain (Pair V)} {w : World V} (h : Tables configs w) (d : LanguageDef V) : Tables (dropBase configs d) w := by
  unfold dropBase
  cases hd : configs.lookup (.language d.name) with
  | none => exact h
  | some p =>
    refine h.setBase d.name _ (newWithBase_ok p none) (h.distinct _ p hd) fun k => ?_
    rw [newWithBase_user, ← h.user, userOf, hd]
    rfl

theorem dropBase_base (configs : Map Domain (Pair V)) (d : LanguageDef V) (n : String) (k : String) :
    baseOf (dropBase configs d) (.language n) k = if n = d.name then none else baseOf configs (.language n) k := by
  unfold dropBase
  cases hd : configs.lookup (.language d.name) with
  | none =>
    by_cases e : n = d.name
    · rw [if_pos e, e]
      simp only [baseOf, hd]
      rfl
    · rw [if_neg e]
  | some p =>
    simp only
    rw [base_set]
    by_cases e : n = d.name
    · rw [if_pos (by rw [e]), if_pos e]; rfl
    · rw [if_neg (by simpa using e), if_neg e]

theorem dropAll {w : World V} : ∀ (ds : List (LanguageDef V)) {configs : Map Domain (Pair V)}, Tables configs w →
    Tables (ds.foldl dropBase configs) w ∧
      ∀ n k, baseOf (ds.foldl dropBase configs) (.language n) k = if ∃ d ∈ ds, d.name = n then none else baseOf configs (.language n) k
  | [], configs, h => ⟨h, by simp⟩
  | d :: ds, configs, h => by
    obtain ⟨h1, h2⟩ := dropAll ds (dropBase_tables h d)
    refine ⟨h1, fun n k => ?_⟩
    rw [List.foldl_cons, h2, dropBase_base]
    by_cases c1 : ∃ d ∈ ds, d.name = n
    · rw [if_pos c1, if_pos]
      obtain ⟨x, hx, hn⟩ := c1
      exact ⟨x, List.mem_cons_of_mem _ hx, hn⟩
    · rw [if_neg c1]
      by_cases c2 : n = d.name
      · rw [if_pos c2, if_pos ⟨d, List.mem_cons_self, c2.symm⟩]
      · rw [if_neg c2, if_neg]
        rintro ⟨x, hx, hn⟩
        rcases List.mem_cons.1 hx with rfl | hx
        · exact c2 hn.symm
        · exact c1 ⟨x, hx, hn⟩

theorem putBase_tables {configs : Map Domain (Pair V)} {w : World V} (h : Tables configs w) (d : LanguageDef V) : Tables (putBase configs d) w := by
  unfold putBase
  cases hd : configs.lookup (.language d.name) with
  | none =>
    refine h.setBase d.name _ (withBase_ok _) List.nodup_nil fun k => ?_
    rw [← h.user, userOf, hd]
    rfl
  | some p =>
    refine h.setBase d.name _ (newWithBase_ok p _) (h.distinct _ p hd) fun k => ?_
    rw [newWithBase_user, ← h.user, userOf, hd]
    rfl

theorem putBase_base (configs : Map Domain (Pair V)) (d : LanguageDef V) (n : String) (k : String) :
    baseOf (putBase configs d) (.language n) k = if n = d.name then (d.defaults.getD []).lookup k else baseOf configs (.language n) k := by
  unfold putBase
  cases hd : configs.lookup (.language d.name) with
  | none =>
    simp only
    rw [base_set]
    by_cases e : n = d.name
    · rw [if_pos (by rw [e]), if_pos e]; rfl
    · rw [if_neg (by simpa using e), if_neg e]
  | some p =>
    simp only
    rw [base_set]
    by_cases e : n = d.name
    · rw [if_pos (by rw [e]), if_pos e]; rfl
    · rw [if_neg (by simpa using e), if_neg e]

/-! ## One language after the other -/

open Classical in
/-- The settings after the files of some languages have been read. -/
noncomputable def World.filed (σ : Schema V) (w : World V) (names : List String) (files : String → Option (Settings V)) : World V :=
  { w with
    user := fun d => match d with
      | .language n =>
        if n ∈ names then w.fromFile σ (files n) (w.user d) else w.user d
      | d => w.user d }

/-- The state in the loop of `set_languages`. -/
structure Loop (σ : Schema V) (files : String → Option (Table V)) (m0 : Manager V) (w : World V) (done : List (LanguageDef V)) (m : Manager V) : Prop where
  tables : Tables m.configs (w.filed σ (done.map (·.name)) fun n => (files n).map fun t k => t.lookup k)
  base : ∀ n k, baseOf m.configs (.language n) k = match done.find? (·.name = n) with
    | some d => (d.defaults.getD []).lookup k
    | none => baseOf m0.configs (.language n) k
  languages : m.languages = m0.languages
  tags : m.tags = m0.tags
  distinct : Distinct m.buffers
  same : ∀ i, (m.buffers.lookup i).isSome = (m0.buffers.lookup i).isSome

theorem filed_nil (σ : Schema V) (w : World V) (files : String → Option (Settings V)) (d : Domain) (k : String) : (w.filed σ [] files).user d k = w.user d k := by
  cases d <;> simp [World.filed]

theorem Tables.of_user {configs : Map Domain (Pair V)} {w w' : World V} (h : Tables configs w) (hd : w'.defaults = w.defaults) (hu : ∀ d k, w'.user d k = w.user d k) :
    Tables configs w' := by
  refine ⟨?_, h.ok, h.distinct, fun d k => by rw [h.user, hu], h.sysBase, h.userBase⟩
  rw [hd]
  exact h.general

theorem filed_add (σ : Schema V) (w : World V) (names : List String) (files : String → Option (Settings V)) (n : String) (hn : n ∉ names) (d : Domain) (k : String) :
    (w.filed σ (names ++ [n]) files).user d k = match files n with
      | some t => open Classical in if w.Accepts σ t then ((w.filed σ names files).setUser (.language n) t).user d k else (w.filed σ names files).user d k
      | none => (w.filed σ names files).user d k := by
  cases d with
  | language x =>
    by_cases hx : x = n
    · subst hx
      simp only [World.filed, World.setUser, List.mem_append, List.mem_singleton, or_true, if_true, hn, if_false, World.fromFile]
      cases files x with
      | none => rfl
      | some t =>
        simp only
        split <;> rfl
    · simp only [World.filed, World.setUser, List.mem_append, List.mem_singleton, hx, or_false, Domain.language.injEq, if_false]
      cases files n with
      | none => rfl
      | some t => simp
  | general =>
    simp only [World.filed, World.setUser]
    cases files n <;> simp
  | userOverride i =>
    simp only [World.filed, World.setUser]
    cases files n <;> simp
  | sysOverride i =>
    simp only [World.filed, World.setUser]
    cases files n <;> simp

theorem Loop.step {σ : Schema V} {files : String → Option (Table V)} {m0 m m' : Manager V} {w : World V} {done : List (LanguageDef V)} {d : LanguageDef V}
    (hf : ∀ n t, files n = some t → Distinct t) (h : Loop σ files m0 w done m) (hn : d.name ∉ done.map (·.name)) (hs : Manager.setLanguage σ files m d = some m') :
    Loop σ files m0 w (done ++ [d]) m' := by
  have ht := putBase_tables h.tables d
  have hb : ∀ n k, baseOf (putBase m.configs d) (.language n) k = match (done ++ [d]).find? (·.name = n) with
      | some d => (d.defaults.getD []).lookup k
      | none => baseOf m0.configs (.language n) k := by
    intro n k
    rw [putBase_base, h.base, List.find?_append]
    by_cases e : n = d.name
    · have : done.find? (·.name = n) = none := by
        rw [List.find?_eq_none]
        intro x hx hc
        exact hn (List.mem_map.2 ⟨x, hx, by rw [← e]; simpa using hc⟩)
      rw [if_pos e, this]
      simp [e]
    · rw [if_neg e]
      have : [d].find? (fun x => decide (x.name = n)) = none := by simp [Ne.symm e]
      rw [this, Option.or_none]
  have hadd := filed_add σ w (done.map (·.name)) (fun n => (files n).map fun t k => t.lookup k) d.name hn
  unfold Manager.setLanguage at hs
  simp only at hs
  cases hfile : files d.name with
  | none =>
    rw [hfile] at hs
    cases hs
    simp only [hfile, Option.map_none] at hadd
    refine ⟨ht.of_user rfl ?_, hb, h.languages, h.tags, h.distinct, h.same⟩
    rw [List.map_append]
    exact hadd
  | some t =>
    rw [hfile] at hs
    simp only [hfile, Option.map_some] at hadd
    obtain ⟨b, hb1, hb2⟩ := Tables.check (σ := σ) (m := { m with configs := putBase m.configs d }) ht (hf _ _ hfile)
    have hb2 : b = true ↔ w.Accepts σ (t.lookup ·) := hb2
    simp only at hs
    rw [setUserConfig_eq _ _ _ _ hb1] at hs
    cases b with
    | false =>
      simp only [Bool.false_eq_true, if_false, Option.bind_eq_bind, Option.bind_some, Option.pure_def] at hs
      cases hs
      have hna : ¬ w.Accepts σ (t.lookup ·) := fun c => by simpa using hb2.2 c
      simp only [hna, if_false] at hadd
      refine ⟨ht.of_user rfl ?_, hb, h.languages, h.tags, h.distinct, h.same⟩
      rw [List.map_append]
      exact hadd
    | true =>
      have hya : w.Accepts σ (t.lookup ·) := hb2.1 rfl
      simp only [hya, if_true] at hadd
      simp only [if_true] at hs
      cases hup : Manager.updateAll σ { m with configs := set (putBase m.configs d) (.language d.name) ((((putBase m.configs d).lookup (.language d.name)).getD (Pair.withBase none)).setTable t) } with
      | none => rw [hup] at hs; cases hs
      | some r =>
        rw [hup] at hs
        cases hs
        obtain ⟨b, g1, g2, g3⟩ := updateAll_frame (by exact h.distinct) hup
        rw [g1]
        refine ⟨(ht.setUser (.language d.name) (hf _ _ hfile)).of_user rfl ?_, ?_, h.languages, h.tags, g2, fun i => (g3 i).trans (h.same i)⟩
        · rw [List.map_append]
          exact hadd
        · intro n k
          rw [← hb n k]
          exact setTable_base (putBase m.configs d) (.language d.name) (.language n) t k

theorem Loop.all {σ : Schema V} {files : String → Option (Table V)} {m0 : Manager V} {w : World V} (hf : ∀ n t, files n = some t → Distinct t) :
    ∀ (ds : List (LanguageDef V)) {done : List (LanguageDef V)} {m m' : Manager V}, Loop σ files m0 w done m → ((done ++ ds).map (·.name)).Nodup →
    ds.foldlM (Manager.setLanguage σ files) m = some m' → Loop σ files m0 w (done ++ ds) m'
  | [], done, m, m', h, _, hs => by
    cases hs
    rwa [List.append_nil]
  | d :: ds, done, m, m', h, hnd, hs => by
    rw [List.foldlM_cons] at hs
    cases h1 : Manager.setLanguage σ files m d with
    | none => rw [h1] at hs; cases hs
    | some m1 =>
      rw [h1] at hs
      have hn : d.name ∉ done.map (·.name) := by
        rw [List.map_append, List.nodup_append] at hnd
        intro hc
        exact hnd.2.2 _ hc _ (by simp) rfl
      have := Loop.all hf ds (h.step hf hn h1) (by simpa using hnd) hs
      simpa using this

theorem find_values {l : Languages V} (h : l.WF) (n : String) : (l.named.map (·.2)).find? (·.name = n) = l.named.lookup n := by
  cases hn : l.named.lookup n with
  | none =>
    rw [List.find?_eq_none]
    intro d hd hc
    obtain ⟨e, he, rfl⟩ := List.mem_map.1 hd
    have h1 := (mem_iff_lookup h.distinct).1 (show (e.1, e.2) ∈ l.named from he)
    have := h.names _ _ h1
    simp only [decide_eq_true_iff] at hc
    rw [this] at hc
    rw [hc, hn] at h1
    cases h1
  | some d =>
    have hm := (mem_iff_lookup h.distinct).2 hn
    have hdn := h.names _ _ hn
    cases hf : (l.named.map (·.2)).find? (·.name = n) with
    | none =>
      rw [List.find?_eq_none] at hf
      exact absurd (by simpa using hdn) (hf d (List.mem_map.2 ⟨(n, d), hm, rfl⟩))
    | some d' =>
      have h1 := List.mem_of_find?_eq_some hf
      have h2 := List.find?_some hf
      obtain ⟨e, he, rfl⟩ := List.mem_map.1 h1
      have h3 := (mem_iff_lookup h.distinct).1 (show (e.1, e.2) ∈ l.named from he)
      have h4 := h.names _ _ h3
      simp only [decide_eq_true_iff] at h2
      rw [h4] at h2
      rw [h2, hn] at h3
      exact h3.symm

theorem values_nodup {l : Languages V} (h : l.WF) : ((l.named.map (·.2)).map (·.name)).Nodup := by
  have : (l.named.map (·.2)).map (·.name) = l.named.map (·.1) := by
    rw [List.map_map]
    apply List.map_congr_left
    intro e he
    exact h.names _ _ ((mem_iff_lookup h.distinct).1 (show (e.1, e.2) ∈ l.named from he))
  rw [this]
  exact h.distinct

theorem lookup_new (defs : List (LanguageDef V)) (n : String) : (Languages.new defs).named.lookup n = defs.reverse.find? (·.name = n) := by
  have := new_named defs.reverse n
  rwa [List.reverse_reverse] at this

theorem wf_new (defs : List (LanguageDef V)) : (Languages.new defs).WF := by
  have := new_wf defs.reverse
  rwa [List.reverse_reverse] at this

theorem ext_new (defs : List (LanguageDef V)) (e : String) : (Languages.new defs).extensions.lookup e = defs.reverse.find? (e ∈ ·.extensions) := by
  have := new_ext defs.reverse e
  rwa [List.reverse_reverse] at this

theorem mem_names {l : Languages V} (h : l.WF) (n : String) : n ∈ (l.named.map (·.2)).map (·.name) ↔ (l.named.lookup n).isSome = true := by
  rw [← find_values h n, List.find?_isSome, List.mem_map]
  simp only [decide_eq_true_iff]

theorem names_new (defs : List (LanguageDef V)) (n : String) : n ∈ ((Languages.new defs).named.map (·.2)).map (·.name) ↔ ∃ l ∈ defs, l.name = n := by
  rw [mem_names (wf_new defs), lookup_new, List.find?_isSome]
  simp

theorem Loop.start {σ : Schema V} (files : String → Option (Table V)) {m : Manager V} {w : World V} (h : Tables m.configs w) (hd : Distinct m.buffers) :
    Loop σ files m w [] m :=
  ⟨h.of_user rfl fun d k => filed_nil σ w _ d k, fun n k => by simp, rfl, rfl, hd, fun _ => rfl⟩

theorem setLanguages_spec {σ : Schema V} {files : String → Option (Table V)} {m m' : Manager V} {w : World V} {defs : List (LanguageDef V)}
    (hf : ∀ n t, files n = some t → Distinct t) (h : Refines m w) (hs : m.setLanguages σ files (Languages.new defs) = some m') :
    Refines m' (w.setLanguages σ defs fun n => (files n).map fun t k => t.lookup k) := by
  obtain ⟨d1, d2⟩ := dropAll (m.languages.difference (Languages.new defs)) h.base.tables
  have hwf := wf_new defs
  unfold Manager.setLanguages at hs
  simp only [Option.bind_eq_bind] at hs
  cases h1 : ((Languages.new defs).named.map (·.2)).foldlM (Manager.setLanguage σ files) { m with configs := (m.languages.difference (Languages.new defs)).foldl dropBase m.configs } with
  | none => rw [h1] at hs; cases hs
  | some m2 =>
    rw [h1] at hs
    simp only [Option.bind_some] at hs
    have L := Loop.all hf _ (Loop.start (σ := σ) files (m := { m with configs := (m.languages.difference (Languages.new defs)).foldl dropBase m.configs }) d1 h.distinct)
      (by rw [List.nil_append]; exact values_nodup hwf) h1
    rw [List.nil_append] at L
    have Lb : ∀ n k, baseOf m2.configs (.language n) k = match (Languages.new defs).named.lookup n with
        | some d => (d.defaults.getD []).lookup k
        | none => baseOf ((m.languages.difference (Languages.new defs)).foldl dropBase m.configs) (.language n) k := by
      intro n k
      rw [L.base, find_values hwf]
    cases h2 : Manager.updateAll σ { m2 with languages := Languages.new defs } with
    | none => rw [h2] at hs; cases hs
    | some r =>
      rw [h2] at hs
      obtain ⟨m3, out⟩ := r
      cases hs
      have hb : Base { m2 with languages := Languages.new defs } (w.setLanguages σ defs fun n => (files n).map fun t k => t.lookup k) := by
        refine ⟨L.tables.of_user rfl ?_, hwf, ?_, ?_, ?_⟩
        · intro d k
          cases d with
          | language n =>
            simp only [World.setLanguages, World.filed]
            by_cases hc : ∃ l ∈ defs, l.name = n
            · rw [if_pos hc, if_pos ((names_new defs n).2 hc)]
            · rw [if_neg hc, if_neg (mt (names_new defs n).1 hc)]
          | _ => rfl
        · intro n
          show (defs.reverse.find? (·.name = n)).map _ = ((Languages.new defs).named.lookup n).map fun _ => baseOf m2.configs (.language n)
          rw [lookup_new]
          cases hn : defs.reverse.find? (·.name = n) with
          | none => rfl
          | some d =>
            rw [Option.map_some, Option.map_some]
            congr 1
            funext k
            rw [Lb, lookup_new, hn]
        · intro e
          show (defs.reverse.find? (e ∈ ·.extensions)).map (·.name) = ((Languages.new defs).extensions.lookup e).map (·.name)
          rw [ext_new]
        · intro i
          show w.tags i = (m2.tags.lookup i).map _
          rw [L.tags]
          exact h.base.tags i
      refine (updateAll_spec hb L.distinct ?_ ?_ h2).1
      · intro i
        show (m2.buffers.lookup i).isSome = (m2.tags.lookup i).isSome
        rw [L.same, L.tags]
        exact h.same i
      · intro n k hn
        have hn : (Languages.new defs).named.lookup n = none := hn
        show baseOf m2.configs (.language n) k = none
        rw [Lb, hn]
        simp only
        rw [d2]
        split
        · rfl
        · rename_i hno
          refine h.unloaded n k ?_
          cases ho : m.languages.named.lookup n with
          | none => rfl
          | some d =>
            exact absurd ⟨d, by
              unfold Languages.difference
              exact List.mem_map.2 ⟨(n, d), List.mem_filter.2 ⟨(mem_iff_lookup h.base.wf.distinct).2 ho, by simp [hn]⟩, rfl⟩, h.base.wf.names n d ho⟩ hno

/-! ## No panic -/

/-- A table has acceptable values. -/
def Schema.Good (σ : Schema V) (t : Settings V) : Prop := ∀ k ∈ σ.fields, ∀ v, t k = some v → σ.ok k v = true

theorem good_of_accepts {σ : Schema V} {w : World V} {t : Settings V} (ha : w.Accepts σ t) (hn : NoNull σ t) : σ.Good t := by
  intro k hk v hv
  obtain ⟨v', h1, h2⟩ := ha k hk
  have hne : v ≠ σ.null := by rintro rfl; exact hn k hk hv
  rw [hv, Option.filter_some, if_pos (by simpa using hne), Option.some_or] at h1
  cases h1
  exact h2

theorem fromFile_good {σ : Schema V} {w : World V} (h : w.Valid σ) {file : Option (Settings V)} (hf : ∀ t, file = some t → NoNull σ t) {d : Domain} :
    σ.Good (w.fromFile σ file (w.user d)) := by
  intro k hk v hv
  unfold World.fromFile at hv
  cases file with
  | none => exact h.user k hk _ _ hv
  | some t =>
    simp only at hv
    by_cases ha : w.Accepts σ t
    · rw [if_pos ha] at hv
      exact good_of_accepts ha (hf t rfl) k hk v hv
    · rw [if_neg ha] at hv
      exact h.user k hk _ _ hv

theorem Valid.filed {σ : Schema V} {w : World V} (h : w.Valid σ) (names : List String) {files : String → Option (Settings V)} (hf : ∀ n t, files n = some t → NoNull σ t) :
    (w.filed σ names files).Valid σ := by
  refine ⟨h.defaults, ?_, h.langs⟩
  intro k hk d v hv
  cases d with
  | language n =>
    simp only [World.filed] at hv
    split at hv
    · exact fromFile_good h (hf n) k hk v hv
    · exact h.user k hk _ _ hv
  | _ => exact h.user k hk _ _ hv

theorem setLanguages_valid {σ : Schema V} {w : World V} (h : w.Valid σ) {defs : List (LanguageDef V)} (hd : ∀ d ∈ defs, σ.Good ((d.defaults.getD []).lookup ·))
    {files : String → Option (Settings V)} (hf : ∀ n t, files n = some t → NoNull σ t) : (w.setLanguages σ defs files).Valid σ := by
  refine ⟨h.defaults, ?_, ?_⟩
  · intro k hk d v hv
    cases d with
    | language n =>
      simp only [World.setLanguages] at hv
      split at hv
      · exact fromFile_good h (hf n) k hk v hv
      · exact h.user k hk _ _ hv
    | _ => exact h.user k hk _ _ hv
  · intro k hk n s v hs hv
    simp only [World.setLanguages, Option.map_eq_some_iff] at hs
    obtain ⟨d, h1, rfl⟩ := hs
    have := List.mem_of_find?_eq_some h1
    exact hd d (List.mem_reverse.1 this) k hk v hv

/-- A world for a state in the loop. -/
def midWorld (w : World V) (m : Manager V) : World V :=
  { w with
    langs := fun n => (m.languages.named.lookup n).map fun _ => baseOf m.configs (.language n)
    ext := m.languageForPath
    tags := fun i => (m.tags.lookup i).map fun t => (t.detected, t.user) }

theorem mid_base {m : Manager V} {w : World V} (h : Tables m.configs w) (hl : m.languages.WF) : Base m (midWorld w m) :=
  ⟨h.of_user rfl fun _ _ => rfl, hl, fun _ => rfl, fun _ => rfl, fun _ => rfl⟩

theorem Loop.step_some {σ : Schema V} {files : String → Option (Table V)} {m0 m : Manager V} {w : World V} {done : List (LanguageDef V)} {d : LanguageDef V}
    (hf : ∀ n t, files n = some t → Distinct t ∧ NoNull σ (t.lookup ·)) (h : Loop σ files m0 w done m) (hw : m0.languages.WF) (hv : w.Valid σ)
    (h0 : ∀ n, (m0.languages.named.lookup n).isSome = true → σ.Good (baseOf m0.configs (.language n)))
    (hg : ∀ x ∈ done, σ.Good ((x.defaults.getD []).lookup ·)) (hd : σ.Good ((d.defaults.getD []).lookup ·)) :
    ∃ m', Manager.setLanguage σ files m d = Option.some m' := by
  unfold Manager.setLanguage
  simp only
  cases hfile : files d.name with
  | none => exact ⟨_, rfl⟩
  | some t =>
    obtain ⟨t1, t2⟩ := hf _ _ hfile
    have ht := putBase_tables h.tables d
    have hb := mid_base (m := { m with configs := putBase m.configs d }) ht (by rw [h.languages]; exact hw)
    have hvf := Valid.filed hv (done.map (·.name)) (files := fun n => (files n).map fun t k => t.lookup k) (by
      intro n t ht
      obtain ⟨t', h1, rfl⟩ := Option.map_eq_some_iff.1 ht
      exact (hf n t' h1).2)
    have hvm : (midWorld (w.filed σ (done.map (·.name)) fun n => (files n).map fun t k => t.lookup k) { m with configs := putBase m.configs d }).Valid σ := by
      refine ⟨hvf.defaults, hvf.user, ?_⟩
      intro k hk n s v hs hsv
      simp only [midWorld] at hs
      obtain ⟨dd, h1, rfl⟩ := Option.map_eq_some_iff.1 hs
      have h1 : m.languages.named.lookup n = Option.some dd := h1
      have hsv : baseOf (putBase m.configs d) (.language n) k = Option.some v := hsv
      rw [putBase_base] at hsv
      split at hsv
      · exact hd k hk v hsv
      · rw [h.base] at hsv
        cases hfind : done.find? (·.name = n) with
        | some x =>
          rw [hfind] at hsv
          exact hg x (List.mem_of_find?_eq_some hfind) k hk v hsv
        | none =>
          rw [hfind] at hsv
          refine h0 n ?_ k hk v hsv
          rw [← h.languages, h1]
          rfl
    obtain ⟨x, hx⟩ := setUser_some (dom := .language d.name) t1 hb hvm t2
    simp only
    rw [hx]
    exact ⟨_, rfl⟩

theorem Loop.all_some {σ : Schema V} {files : String → Option (Table V)} {m0 : Manager V} {w : World V} (hf : ∀ n t, files n = some t → Distinct t ∧ NoNull σ (t.lookup ·))
    (hw : m0.languages.WF) (hv : w.Valid σ) (h0 : ∀ n, (m0.languages.named.lookup n).isSome = true → σ.Good (baseOf m0.configs (.language n))) :
    ∀ (ds : List (LanguageDef V)) {done : List (LanguageDef V)} {m : Manager V}, Loop σ files m0 w done m → ((done ++ ds).map (·.name)).Nodup →
    (∀ x ∈ done ++ ds, σ.Good ((x.defaults.getD []).lookup ·)) → ∃ m', ds.foldlM (Manager.setLanguage σ files) m = Option.some m'
  | [], done, m, h, _, _ => ⟨m, rfl⟩
  | d :: ds, done, m, h, hnd, hg => by
    obtain ⟨m1, h1⟩ := h.step_some hf hw hv h0 (fun x hx => hg x (List.mem_append_left _ hx)) (hg d (by simp))
    have hn : d.name ∉ done.map (·.name) := by
      rw [List.map_append, List.nodup_append] at hnd
      intro hc
      exact hnd.2.2 _ hc _ (by simp) rfl
    obtain ⟨m', h2⟩ := Loop.all_some hf hw hv h0 ds (h.step (fun n t ht => (hf n t ht).1) hn h1) (by simpa using hnd) (by simpa using hg)
    refine ⟨m', ?_⟩
    rw [List.foldlM_cons, h1]
    exact h2

theorem setLanguages_some {σ : Schema V} {files : String → Option (Table V)} {m : Manager V} {w : World V} {defs : List (LanguageDef V)}
    (hf : ∀ n t, files n = some t → Distinct t ∧ NoNull σ (t.lookup ·)) (h : Refines m w) (hv : w.Valid σ) (hd : ∀ d ∈ defs, σ.Good ((d.defaults.getD []).lookup ·)) :
    ∃ m', m.setLanguages σ files (Languages.new defs) = some m' := by
  obtain ⟨d1, d2⟩ := dropAll (m.languages.difference (Languages.new defs)) h.base.tables
  have hwf := wf_new defs
  have hvals : ∀ x ∈ (Languages.new defs).named.map (·.2), σ.Good ((x.defaults.getD []).lookup ·) := by
    intro x hx
    obtain ⟨e, he, rfl⟩ := List.mem_map.1 hx
    have := (mem_iff_lookup hwf.distinct).1 (show (e.1, e.2) ∈ (Languages.new defs).named from he)
    rw [lookup_new] at this
    exact hd _ (List.mem_reverse.1 (List.mem_of_find?_eq_some this))
  have h0 : ∀ n, (m.languages.named.lookup n).isSome = true → σ.Good (baseOf ((m.languages.difference (Languages.new defs)).foldl dropBase m.configs) (.language n)) := by
    intro n hn k hk v hkv
    rw [d2] at hkv
    split at hkv
    · cases hkv
    · obtain ⟨dd, hdd⟩ := Option.isSome_iff_exists.1 hn
      exact hv.langs k hk n _ v (by rw [h.base.langs, hdd]; rfl) hkv
  have start := Loop.start (σ := σ) files (m := { m with configs := (m.languages.difference (Languages.new defs)).foldl dropBase m.configs }) d1 h.distinct
  have hnd : ((([] : List (LanguageDef V)) ++ ((Languages.new defs).named.map (·.2) : List (LanguageDef V))).map (·.name)).Nodup := by rw [List.nil_append]; exact values_nodup hwf
  obtain ⟨m2, h2⟩ := Loop.all_some (m0 := { m with configs := (m.languages.difference (Languages.new defs)).foldl dropBase m.configs }) hf h.base.wf hv h0 _ start hnd (by rw [List.nil_append]; exact hvals)
  have L := Loop.all (fun n t ht => (hf n t ht).1) _ start hnd h2
  rw [List.nil_append] at L
  unfold Manager.setLanguages
  simp only [Option.bind_eq_bind, h2, Option.bind_some]
  have hvf := Valid.filed hv (((Languages.new defs).named.map (·.2)).map (·.name)) (files := fun n => (files n).map fun t k => t.lookup k) (by
      intro n t ht
      obtain ⟨t', h1, rfl⟩ := Option.map_eq_some_iff.1 ht
      exact (hf n t' h1).2)
  have hvm : (midWorld (w.filed σ (((Languages.new defs).named.map (·.2)).map (·.name)) fun n => (files n).map fun t k => t.lookup k) { m2 with languages := Languages.new defs }).Valid σ := by
    refine ⟨hvf.defaults, hvf.user, ?_⟩
    intro k hk n s v hs hsv
    simp only [midWorld] at hs
    obtain ⟨dd, h1, rfl⟩ := Option.map_eq_some_iff.1 hs
    have hsv : baseOf m2.configs (.language n) k = some v := hsv
    rw [L.base, find_values hwf, h1] at hsv
    have h1' := (mem_iff_lookup hwf.distinct).2 h1
    exact hvals dd (List.mem_map.2 ⟨_, h1', rfl⟩) k hk v hsv
  obtain ⟨x, hx⟩ := updateLoop_some hvm (m2.buffers.map (·.1)) (mid_base (m := { m2 with languages := Languages.new defs }) L.tables hwf)
  unfold Manager.updateAll
  rw [hx]
  exact ⟨_, rfl⟩

end Config

end Xi
