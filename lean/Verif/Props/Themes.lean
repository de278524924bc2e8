import Verif.Core.Themes

/-!
# C85: themes follow their files
-/

namespace Xi.Themes

open ThemeStyleMap

variable {Th : Type}

/-! ## Specification -/

/-- The file of the theme `n`. -/
def pathOf (dir n : String) : ThemePath := ⟨dir, n, some "tmTheme"⟩

/-- What the name `n` means: a theme of syntect, or what its file has now. -/
def denote (builtIn : List (String × Th)) (dir : String) (files : ThemeFiles Th) (n : String) : Option Th :=
  match get? builtIn n with
  | some t => some t
  | none => (get? files (pathOf dir n)).join

/-- What can happen: the user chooses a theme, and the file of a theme is written, deleted or gets another name; or attributes of a file change. -/
inductive Act (Th : Type) where
  | choose (n : String)
  | write (n : String) (contents : Option Th)
  | delete (n : String)
  | rename (a b : String)
  | touch (n : String)

/-- What becomes of the files. -/
def Act.onFiles (dir : String) (files : ThemeFiles Th) : Act Th → ThemeFiles Th
  | .choose _ => files
  | .write n c => put files (pathOf dir n) c
  | .delete n => files.filter fun e => e.1 ≠ pathOf dir n
  | .rename a b => put (files.filter fun e => e.1 ≠ pathOf dir a) (pathOf dir b) (get? files (pathOf dir a)).join
  | .touch _ => files

/-- The name of the current theme afterwards: the last one that was chosen and that there was, or the default one if its file was deleted. -/
def Act.onName (builtIn : List (String × Th)) (dir : String) (files : ThemeFiles Th) (name : String) : Act Th → String
  | .choose n => if (denote builtIn dir files n).isSome then n else name
  | .write _ _ => name
  | .delete n => if n = name then defaultTheme else name
  | .rename a _ => if a = name then defaultTheme else name
  | .touch _ => name

/-- What the core does: whether it tells the front end, and the new map. -/
def Act.run (foreground : Th → Option Nat) (dir : String) (files : ThemeFiles Th) (m : ThemeStyleMap Th) (a : Act Th) : Bool × ThemeStyleMap Th :=
  match a with
  | .choose n => m.doSetTheme foreground files n
  | .write n _ => handleThemesEvent foreground (a.onFiles dir files) m (.written (pathOf dir n))
  | .delete n => handleThemesEvent foreground (a.onFiles dir files) m (.removed (pathOf dir n))
  | .rename n n' => handleThemesEvent foreground (a.onFiles dir files) m (.renamed (pathOf dir n) (pathOf dir n'))
  | .touch n => handleThemesEvent foreground (a.onFiles dir files) m (.touched (pathOf dir n))

/-- The themes that were chosen since their file was made. -/
def Act.onUsed (used : List String) : Act Th → List String
  | .choose n => n :: used
  | .write _ _ => used
  | .delete n => used.filter (· ≠ n)
  | .rename a _ => used.filter (· ≠ a)
  | .touch _ => used

/-- What the theorems need: no file has the name of a theme of syntect, and the file of a theme that was chosen before changes only while it is the current one, and not to
something that is no theme. -/
def Act.Ok (builtIn : List (String × Th)) (dir : String) (files : ThemeFiles Th) (name : String) (used : List String) : Act Th → Prop
  | .choose _ => True
  | .write n c => get? builtIn n = none ∧ (n ∈ used → n = name ∧ c.isSome)
  | .delete n => get? builtIn n = none
  | .rename a b => a ≠ b ∧ get? builtIn a = none ∧ get? builtIn b = none ∧ (b ∈ used → b = name ∧ (get? files (pathOf dir a)).join.isSome)
  | .touch _ => True

/-- The core when it has started, and after each thing that happened. -/
inductive Reach (foreground : Th → Option Nat) (builtIn : List (String × Th)) (dir : String) : ThemeFiles Th → ThemeStyleMap Th → List String → Prop where
  | start (files : ThemeFiles Th) (m : ThemeStyleMap Th) (hf : ∀ e ∈ files, ∃ n, e.1 = pathOf dir n ∧ get? builtIn n = none)
      (hm : ThemeStyleMap.new foreground builtIn = some m) : Reach foreground builtIn dir files (m.loadDir files.discover) []
  | act (files : ThemeFiles Th) (m : ThemeStyleMap Th) (used : List String) (a : Act Th) (h : Reach foreground builtIn dir files m used)
      (ok : a.Ok builtIn dir files m.themeName used) : Reach foreground builtIn dir (a.onFiles dir files) (a.run foreground dir files m).2 (a.onUsed used)

/-! ## Maps -/

theorem get_put {K V : Type} [DecidableEq K] (l : List (K × V)) (k : K) (v : V) (j : K) : get? (put l k v) j = if j = k then some v else get? l j := by
  unfold get? put
  rw [List.find?_cons]
  by_cases h : j = k
  · subst h
    simp
  · rw [if_neg h]
    have hn : decide (k = j) = false := by simp [Ne.symm h]
    simp only [hn]
    congr 1
    rw [List.find?_filter]
    congr 1
    funext e
    by_cases he : e.1 = j
    · simp [he, h]
    · simp [he]

theorem get_filter {K V : Type} [DecidableEq K] (l : List (K × V)) (k j : K) : get? (l.filter fun e => e.1 ≠ k) j = if j = k then none else get? l j := by
  unfold get?
  rw [List.find?_filter]
  by_cases h : j = k
  · subst h
    simp only [if_pos, Option.map_eq_none_iff, List.find?_eq_none]
    intro e _
    by_cases he : e.1 = j <;> simp [he]
  · rw [if_neg h]
    congr 2
    funext e
    by_cases he : e.1 = j
    · simp [he, h]
    · simp [he]

theorem get_mem {K V : Type} [DecidableEq K] {l : List (K × V)} {k : K} {v : V} (h : get? l k = some v) : (k, v) ∈ l := by
  unfold get? at h
  obtain ⟨e, he, rfl⟩ := Option.map_eq_some_iff.mp h
  have h1 := List.find?_some he
  have h2 := List.mem_of_find?_eq_some he
  have : e.1 = k := by simpa using h1
  rw [← this]
  exact h2

theorem get_isSome_iff {K V : Type} [DecidableEq K] {l : List (K × V)} {k : K} : (get? l k).isSome ↔ k ∈ l.map Prod.fst := by
  unfold get?
  rw [Option.isSome_map, List.find?_isSome]
  simp

theorem pathOf_inj {dir n n' : String} : pathOf dir n = pathOf dir n' ↔ n = n' := by
  constructor
  · intro h
    exact congrArg ThemePath.stem h
  · rintro rfl
    rfl

/-! ## The invariant -/

/-- What holds between any two things that happen. -/
structure Inv (foreground : Th → Option Nat) (builtIn : List (String × Th)) (dir : String) (files : ThemeFiles Th) (m : ThemeStyleMap Th) (used : List String) : Prop where
  dflt : (get? builtIn defaultTheme).isSome
  names : m.defaultThemes = builtIn.map Prod.fst
  cache : m.cacheDir = true
  own : ∀ e ∈ files, ∃ n, e.1 = pathOf dir n ∧ get? builtIn n = none
  known : ∀ n t, get? builtIn n = some t → get? m.themes n = some t
  loaded : ∀ n t, get? builtIn n = none → get? m.themes n = some t → n ∈ used ∧ get? files (pathOf dir n) = some (some t)
  current : get? m.themes m.themeName = some m.theme
  style : m.defaultStyle = Style.defaultForTheme foreground m.theme
  entries : ∀ e ∈ m.pathMap, e.2 = pathOf dir e.1 ∧ (get? files (pathOf dir e.1)).isSome
  paths : ∀ n, (get? files (pathOf dir n)).isSome → get? m.pathMap n = some (pathOf dir n)

variable {foreground : Th → Option Nat} {builtIn : List (String × Th)} {dir : String} {files : ThemeFiles Th} {m : ThemeStyleMap Th} {used : List String}

theorem Inv.file (h : Inv foreground builtIn dir files m used) {n : String} (hf : (get? files (pathOf dir n)).isSome) : get? builtIn n = none := by
  obtain ⟨e, he, h1⟩ := List.mem_map.mp (get_isSome_iff.mp hf)
  obtain ⟨n', h2, h3⟩ := h.own e he
  rw [h1, pathOf_inj] at h2
  exact h2 ▸ h3

theorem Inv.path (h : Inv foreground builtIn dir files m used) (n : String) :
    get? m.pathMap n = if (get? files (pathOf dir n)).isSome then some (pathOf dir n) else none := by
  split
  · next c => exact h.paths n c
  · next c =>
    cases hp : get? m.pathMap n with
    | none => rfl
    | some p => exact absurd (h.entries _ (get_mem hp)).2 c

theorem Inv.means (h : Inv foreground builtIn dir files m used) {n : String} {t : Th} (hn : get? m.themes n = some t) : denote builtIn dir files n = some t := by
  unfold denote
  cases hb : get? builtIn n with
  | some t' =>
    rw [h.known n t' hb] at hn
    exact hn
  | none =>
    rw [(h.loaded n t hb hn).2]
    rfl

/-- Choosing a theme other than the current one. -/
theorem Inv.choose (h : Inv foreground builtIn dir files m used) (n : String) :
    Inv foreground builtIn dir files (m.doSetTheme foreground files n).2 (n :: used) ∧
      (m.doSetTheme foreground files n).2.themeName = (if (denote builtIn dir files n).isSome then n else m.themeName) := by
  have weak : Inv foreground builtIn dir files m (n :: used) :=
    { h with loaded := fun k t hb hk => ⟨List.mem_cons_of_mem _ (h.loaded k t hb hk).1, (h.loaded k t hb hk).2⟩ }
  by_cases hn : n = m.themeName
  · have : (m.doSetTheme foreground files n) = (true, m) := by simp [doSetTheme, hn]
    rw [this]
    refine ⟨weak, ?_⟩
    split
    · exact hn.symm
    · rfl
  · simp only [doSetTheme, ne_eq, hn, not_false_eq_true, if_true]
    cases ht : get? m.themes n with
    | some t =>
      have hl : m.loadTheme files.read n = (true, m) := by simp [loadTheme, containsTheme, ht, Ne.symm hn]
      simp only [setTheme, hl, ht, h.means ht, Option.isSome_some, if_true, and_true]
      exact { weak with current := ht, style := rfl }
    | none =>
      have hb : get? builtIn n = none := by
        cases hb : get? builtIn n with
        | none => rfl
        | some t =>
          rw [h.known n t hb] at ht
          cases ht
      have hd : denote builtIn dir files n = (get? files (pathOf dir n)).join := by simp [denote, hb]
      have hl : m.loadTheme files.read n = match (get? files (pathOf dir n)).join with
          | none => (false, m)
          | some th => (true, { m with themes := put m.themes n th }) := by
        simp only [loadTheme, containsTheme, ht, Option.isSome_none, Bool.false_and, Bool.false_eq_true, if_false, h.path n]
        cases hf : get? files (pathOf dir n) with
        | none => rfl
        | some c => cases c <;> simp [ThemeFiles.read, hf]
      rw [hd]
      cases hc : (get? files (pathOf dir n)).join with
      | none =>
        simp only [setTheme, hl, hc]
        exact ⟨weak, rfl⟩
      | some th =>
        simp only [setTheme, hl, hc, get_put, if_true, Option.isSome_some, and_true]
        refine { weak with known := ?_, loaded := ?_, current := by simp [get_put], style := rfl }
        · intro k t hk
          simp only [get_put]
          split
          · next e =>
            rw [e, hb] at hk
            cases hk
          · exact h.known k t hk
        · intro k t hk hk'
          simp only [get_put] at hk'
          split at hk'
          · next e =>
            subst e
            refine ⟨List.mem_cons_self, ?_⟩
            rw [← hk']
            exact Option.join_eq_some_iff.mp hc
          · exact weak.loaded k t hk hk'

/-- The file of a theme is written. -/
theorem Inv.write (h : Inv foreground builtIn dir files m used) {n : String} {c : Option Th} (hb : get? builtIn n = none) (hu : n ∈ used → n = m.themeName ∧ c.isSome)
    {files' : ThemeFiles Th} (hf : files' = put files (pathOf dir n) c) :
    Inv foreground builtIn dir files' (m.loadThemeFile foreground files' (pathOf dir n)).2 used ∧ (m.loadThemeFile foreground files' (pathOf dir n)).2.themeName = m.themeName := by
  subst hf
  have own : ∀ e ∈ put files (pathOf dir n) c, ∃ n, e.1 = pathOf dir n ∧ get? builtIn n = none := by
    intro e he
    rcases List.mem_cons.mp he with rfl | he
    · exact ⟨n, rfl, hb⟩
    · exact h.own e (List.mem_filter.mp he).1
  have entries : ∀ e ∈ put m.pathMap n (pathOf dir n), e.2 = pathOf dir e.1 ∧ (get? (put files (pathOf dir n) c) (pathOf dir e.1)).isSome := by
    intro e he
    rcases List.mem_cons.mp he with rfl | he
    · simp [get_put]
    · obtain ⟨h1, h2⟩ := h.entries e (List.mem_filter.mp he).1
      refine ⟨h1, ?_⟩
      rw [get_put]
      split
      · rfl
      · exact h2
  have paths : ∀ k, (get? (put files (pathOf dir n) c) (pathOf dir k)).isSome → get? (put m.pathMap n (pathOf dir n)) k = some (pathOf dir k) := by
    intro k hk
    rw [get_put] at hk ⊢
    simp only [pathOf_inj] at hk
    split
    · next e => rw [e]
    · next e =>
      rw [if_neg e] at hk
      exact h.paths k hk
  have hi : m.loadInfo (pathOf dir n) = some (n, { m with pathMap := put m.pathMap n (pathOf dir n) }) := by
    simp [loadInfo, validate, pathOf]
  simp only [loadThemeFile, hi]
  by_cases hn : n = m.themeName
  · rw [if_pos hn]
    subst hn
    obtain ⟨hu1, hcur⟩ := h.loaded _ _ hb h.current
    obtain ⟨-, hc⟩ := hu hu1
    obtain ⟨th, rfl⟩ := Option.isSome_iff_exists.mp hc
    have hl : loadTheme (ThemeFiles.read (put files (pathOf dir m.themeName) (some th))) { m with pathMap := put m.pathMap m.themeName (pathOf dir m.themeName) } m.themeName
        = (true, { m with pathMap := put m.pathMap m.themeName (pathOf dir m.themeName), themes := put m.themes m.themeName th }) := by
      simp [loadTheme, get_put, ThemeFiles.read]
    simp only [setTheme, hl, get_put, if_true, and_true]
    refine { h with own := own, entries := entries, paths := paths, current := by simp [get_put], style := rfl, known := ?_, loaded := ?_ }
    · intro k t hk
      simp only [get_put]
      split
      · next e =>
        rw [e, hb] at hk
        cases hk
      · exact h.known k t hk
    · intro k t hk hk'
      simp only [get_put, pathOf_inj] at hk' ⊢
      split at hk'
      · next e =>
        rw [if_pos e]
        exact ⟨e ▸ hu1, by rw [Option.some.inj hk']⟩
      · next e =>
        rw [if_neg e]
        exact h.loaded k t hk hk'
  · rw [if_neg hn]
    refine ⟨{ h with own := own, entries := entries, paths := paths, loaded := ?_ }, rfl⟩
    intro k t hk hk'
    have hkn : k ≠ n := by
      rintro rfl
      exact hn (hu (h.loaded k t hk hk').1).1
    rw [get_put, if_neg (fun e => hkn (pathOf_inj.mp e))]
    exact h.loaded k t hk hk'

/-- The file of a theme is deleted. -/
theorem Inv.delete (h : Inv foreground builtIn dir files m used) {n : String} (hb : get? builtIn n = none) (after : ThemeFiles Th) :
    Inv foreground builtIn dir (files.filter fun e => e.1 ≠ pathOf dir n) (m.removeThemeFile foreground after (pathOf dir n)).2 (used.filter (· ≠ n)) ∧
      (m.removeThemeFile foreground after (pathOf dir n)).2.themeName = if n = m.themeName then defaultTheme else m.themeName := by
  have own : ∀ e ∈ files.filter fun e => e.1 ≠ pathOf dir n, ∃ n, e.1 = pathOf dir n ∧ get? builtIn n = none := fun e he => h.own e (List.mem_filter.mp he).1
  have known : ∀ k t, get? builtIn k = some t → get? (m.themes.filter fun e => e.1 ≠ n) k = some t := by
    intro k t hk
    rw [get_filter]
    split
    · next e =>
      rw [e, hb] at hk
      cases hk
    · exact h.known k t hk
  have loaded : ∀ k t, get? builtIn k = none → get? (m.themes.filter fun e => e.1 ≠ n) k = some t →
      k ∈ used.filter (· ≠ n) ∧ get? (files.filter fun e => e.1 ≠ pathOf dir n) (pathOf dir k) = some (some t) := by
    intro k t hk hk'
    rw [get_filter] at hk' ⊢
    split at hk'
    · cases hk'
    · next e =>
      rw [if_neg (fun e' => e (pathOf_inj.mp e'))]
      obtain ⟨h1, h2⟩ := h.loaded k t hk hk'
      exact ⟨List.mem_filter.mpr ⟨h1, by simpa using e⟩, h2⟩
  have entries : ∀ e ∈ m.pathMap.filter fun e => e.1 ≠ n, e.2 = pathOf dir e.1 ∧ (get? (files.filter fun e => e.1 ≠ pathOf dir n) (pathOf dir e.1)).isSome := by
    intro e he
    obtain ⟨h1, h2⟩ := List.mem_filter.mp he
    obtain ⟨h3, h4⟩ := h.entries e h1
    refine ⟨h3, ?_⟩
    rw [get_filter, if_neg (fun e' => (by simpa using h2 : e.1 ≠ n) (pathOf_inj.mp e'))]
    exact h4
  have paths : ∀ k, (get? (files.filter fun e => e.1 ≠ pathOf dir n) (pathOf dir k)).isSome → get? (m.pathMap.filter fun e => e.1 ≠ n) k = some (pathOf dir k) := by
    intro k hk
    rw [get_filter] at hk ⊢
    simp only [pathOf_inj] at hk
    split
    · next e =>
      rw [if_pos e] at hk
      cases hk
    · next e =>
      rw [if_neg e] at hk
      exact h.paths k hk
  have hr : m.removeTheme (pathOf dir n) = (some n, { m with themes := m.themes.filter fun e => e.1 ≠ n, pathMap := m.pathMap.filter fun e => e.1 ≠ n }) := by
    unfold removeTheme
    have hv : validate (pathOf dir n) = true := rfl
    rw [if_pos hv, if_pos h.cache]
    rfl
  simp only [removeThemeFile, hr]
  by_cases hn : n = m.themeName
  · rw [if_pos hn, if_pos hn]
    obtain ⟨t, ht⟩ := Option.isSome_iff_exists.mp h.dflt
    have hne : defaultTheme ≠ m.themeName := by
      rintro e
      rw [← hn] at e
      rw [e, hb] at ht
      cases ht
    have hc := known _ _ ht
    have hl : ∀ r, loadTheme r { m with themes := m.themes.filter fun e => e.1 ≠ n, pathMap := m.pathMap.filter fun e => e.1 ≠ n } defaultTheme =
        (true, { m with themes := m.themes.filter fun e => e.1 ≠ n, pathMap := m.pathMap.filter fun e => e.1 ≠ n }) := by
      intro r
      have hcon : containsTheme { m with themes := m.themes.filter fun e => e.1 ≠ n, pathMap := m.pathMap.filter fun e => e.1 ≠ n } defaultTheme = true := by
        show (get? _ _).isSome = true
        rw [hc]
        rfl
      unfold loadTheme
      rw [hcon, if_pos (by simpa using Ne.symm hne)]
    simp only [doSetTheme, ne_eq, hne, not_false_eq_true, if_true, setTheme, hl, hc, and_true]
    exact { h with own := own, known := known, loaded := loaded, entries := entries, paths := paths, current := hc, style := rfl }
  · rw [if_neg hn, if_neg hn]
    refine ⟨{ h with own := own, known := known, loaded := loaded, entries := entries, paths := paths, current := ?_ }, rfl⟩
    show get? (m.themes.filter fun e => e.1 ≠ n) m.themeName = _
    rw [get_filter, if_neg (Ne.symm hn)]
    exact h.current

/-- Looking at the folder again finds nothing new. -/
theorem Inv.sync (h : Inv foreground builtIn dir files m used) : m.syncDir files.discover = m := by
  have h1 : (files.discover.filter fun p => p ∉ m.pathMap.map Prod.snd) = [] := by
    rw [List.filter_eq_nil_iff]
    intro p hp
    obtain ⟨hp1, -⟩ := List.mem_filter.mp hp
    obtain ⟨e, he, rfl⟩ := List.mem_map.mp hp1
    obtain ⟨n, h2, -⟩ := h.own e he
    have h3 : (get? files (pathOf dir n)).isSome := get_isSome_iff.mpr (h2 ▸ hp1)
    have := List.mem_map_of_mem (f := Prod.snd) (get_mem (h.paths n h3))
    rw [h2]
    simpa using this
  have h2 : ((m.pathMap.map Prod.snd).filter fun p => p ∉ files.discover) = [] := by
    rw [List.filter_eq_nil_iff]
    intro p hp
    obtain ⟨e, he, rfl⟩ := List.mem_map.mp hp
    obtain ⟨h3, h4⟩ := h.entries e he
    have : e.2 ∈ files.discover := List.mem_filter.mpr ⟨h3 ▸ get_isSome_iff.mp h4, by simp [h3, pathOf]⟩
    simpa using this
  simp only [syncDir, h1, h2, List.foldl_nil]

theorem loadAll (ps : List ThemePath) : ∀ (m : ThemeStyleMap Th), (∀ p ∈ ps, ∃ n, p = pathOf dir n) →
    ∃ pm, ps.foldl (fun m p => ((m.loadInfo p).map Prod.snd).getD m) m = { m with pathMap := pm } ∧ (∀ e ∈ pm, e ∈ m.pathMap ∨ e.2 = pathOf dir e.1 ∧ e.2 ∈ ps) ∧
      ∀ n, get? pm n = if pathOf dir n ∈ ps then some (pathOf dir n) else get? m.pathMap n := by
  induction ps with
  | nil => exact fun m _ => ⟨m.pathMap, rfl, fun e he => .inl he, fun n => by simp⟩
  | cons p ps ih =>
    intro m hp
    obtain ⟨k, rfl⟩ := hp p List.mem_cons_self
    have hi : m.loadInfo (pathOf dir k) = some (k, { m with pathMap := put m.pathMap k (pathOf dir k) }) := by simp [loadInfo, validate, pathOf]
    obtain ⟨pm, h1, h2, h3⟩ := ih { m with pathMap := put m.pathMap k (pathOf dir k) } (fun p hp' => hp p (List.mem_cons_of_mem _ hp'))
    refine ⟨pm, ?_, ?_, ?_⟩
    · rw [List.foldl_cons, hi]
      exact h1
    · intro e he
      rcases h2 e he with h4 | ⟨h4, h5⟩
      · rcases List.mem_cons.mp h4 with rfl | h4
        · exact .inr ⟨rfl, List.mem_cons_self⟩
        · exact .inl (List.mem_filter.mp h4).1
      · exact .inr ⟨h4, List.mem_cons_of_mem _ h5⟩
    · intro n
      rw [h3 n]
      simp only [get_put, List.mem_cons, pathOf_inj]
      by_cases e : n = k
      · simp [e]
      · simp [e]

theorem Inv.start (hf : ∀ e ∈ files, ∃ n, e.1 = pathOf dir n ∧ get? builtIn n = none) (hm : ThemeStyleMap.new foreground builtIn = some m) :
    Inv foreground builtIn dir files (m.loadDir files.discover) [] := by
  simp only [ThemeStyleMap.new, Option.bind_eq_bind, Option.bind_eq_some_iff] at hm
  obtain ⟨t, ht, hm⟩ := hm
  obtain rfl := Option.some.inj hm
  obtain ⟨pm, h1, h2, h3⟩ := loadAll (dir := dir) files.discover
    (⟨builtIn, defaultTheme, t, builtIn.map Prod.fst, Style.defaultForTheme foreground t, [], [], [], true⟩ : ThemeStyleMap Th) (by
      intro p hp
      obtain ⟨hp1, -⟩ := List.mem_filter.mp hp
      obtain ⟨e, he, rfl⟩ := List.mem_map.mp hp1
      obtain ⟨n, h, -⟩ := hf e he
      exact ⟨n, h⟩)
  have hd : ∀ n, pathOf dir n ∈ files.discover ↔ (get? files (pathOf dir n)).isSome := by
    intro n
    rw [get_isSome_iff, ThemeFiles.discover, List.mem_filter]
    simp [pathOf]
  have h1' : loadDir ⟨builtIn, defaultTheme, t, builtIn.map Prod.fst, Style.defaultForTheme foreground t, [], [], [], false⟩ files.discover =
      ⟨builtIn, defaultTheme, t, builtIn.map Prod.fst, Style.defaultForTheme foreground t, [], pm, [], true⟩ := h1
  rw [h1']
  refine { dflt := by rw [ht]; rfl, names := rfl, cache := rfl, own := hf, known := fun _ _ h => h, loaded := ?_, current := ht, style := rfl, entries := ?_, paths := ?_ }
  · intro n t hn hn'
    rw [hn] at hn'
    cases hn'
  · intro e he
    rcases h2 e he with h4 | ⟨h4, h5⟩
    · cases h4
    · exact ⟨h4, (hd _).mp (h4 ▸ h5)⟩
  · intro n hn
    rw [h3, if_pos ((hd n).mpr hn)]

theorem Inv.act (h : Inv foreground builtIn dir files m used) (a : Act Th) (ok : a.Ok builtIn dir files m.themeName used) :
    Inv foreground builtIn dir (a.onFiles dir files) (a.run foreground dir files m).2 (a.onUsed used) ∧
      (a.run foreground dir files m).2.themeName = a.onName builtIn dir files m.themeName := by
  cases a with
  | choose n => exact h.choose n
  | write n c => exact h.write ok.1 ok.2 rfl
  | delete n =>
    have : (get? (files.filter fun e => e.1 ≠ pathOf dir n) (pathOf dir n)).isSome = false := by rw [get_filter]; simp
    simp only [Act.run, handleThemesEvent, Act.onFiles, this, Bool.false_eq_true, if_false]
    exact h.delete ok _
  | rename a b =>
    obtain ⟨o1, o2, o3, o4⟩ := ok
    obtain ⟨h1, h2⟩ := h.delete o2 ((Act.rename a b).onFiles dir files)
    obtain ⟨h3, h4⟩ := h1.write (n := b) (c := (get? files (pathOf dir a)).join) o3 (by
      intro hb
      obtain ⟨b1, b2⟩ := o4 (List.mem_filter.mp hb).1
      refine ⟨?_, b2⟩
      rw [h2, if_neg (by rw [← b1]; exact o1)]
      exact b1) rfl
    exact ⟨h3, h4.trans h2⟩
  | touch n =>
    simp only [Act.run, handleThemesEvent, Act.onFiles, h.sync]
    exact ⟨h, rfl⟩

theorem Reach.inv (h : Reach foreground builtIn dir files m used) : Inv foreground builtIn dir files m used := by
  induction h with
  | start files m hf hm => exact .start hf hm
  | act files m used a _ ok ih => exact (ih.act a ok).1

/-! ## C85 -/

/-- **C85 (in part).** Whatever is chosen, and whatever happens to the files: the current theme is what its name means now, the styles are on top of its default style, and the list of themes has
the themes of syntect and those that have a file.  Missing: files with the name of a theme of syntect (`C85_default_refuted`), and changes of the file
of a theme that was chosen before and is not the current one (`C85_stale_refuted`). -/
theorem C85_session_partial (h : Reach foreground builtIn dir files m used) :
    denote builtIn dir files m.themeName = some m.theme ∧ m.defaultStyle = Style.defaultForTheme foreground m.theme ∧
      ∀ n, n ∈ m.themeNames ↔ (get? builtIn n).isSome ∨ (get? files (pathOf dir n)).isSome := by
  have i := h.inv
  refine ⟨i.means i.current, i.style, fun n => ?_⟩
  rw [themeNames, List.mem_append, i.names, ← get_isSome_iff, ← get_isSome_iff, i.path n, or_comm]
  by_cases c : (get? files (pathOf dir n)).isSome <;> simp [c]

/-- **C85 (in part).** The name of the current theme is that of the last theme that was chosen and that there was, or the default one once its file is deleted or has got another name. -/
theorem C85_name_partial (h : Reach foreground builtIn dir files m used) (a : Act Th) (ok : a.Ok builtIn dir files m.themeName used) :
    (a.run foreground dir files m).2.themeName = a.onName builtIn dir files m.themeName := (h.inv.act a ok).2

/-- What the styles of a text depend on, and the numbers they have. -/
def look (m : ThemeStyleMap Th) : String × Th × Style × List (Style × Nat) × List Style := (m.themeName, m.theme, m.defaultStyle, m.map, m.styles)

theorem setTheme_told (read : ThemePath → Option Th) (m : ThemeStyleMap Th) (n : String) (h : (m.setTheme foreground read n).1 = false) :
    look (m.setTheme foreground read n).2 = look m := by
  have hl : ∀ b m', m.loadTheme read n = (b, m') → look m' = look m := by
    intro b m' h
    simp only [loadTheme] at h
    split at h
    · cases h; rfl
    · split at h
      · cases h; rfl
      · split at h <;> cases h <;> rfl
  revert h
  unfold setTheme
  split
  · next e => exact fun _ => hl _ _ e
  · next e =>
    split
    · exact fun _ => hl _ _ e
    · intro h
      cases h

theorem doSetTheme_told (files : ThemeFiles Th) (m : ThemeStyleMap Th) (n : String) (h : (m.doSetTheme foreground files n).1 = false) :
    look (m.doSetTheme foreground files n).2 = look m := by
  unfold doSetTheme at h ⊢
  split
  · next c =>
    rw [if_pos c] at h
    exact setTheme_told _ _ _ h
  · rfl

theorem loadThemeFile_told (files : ThemeFiles Th) (m : ThemeStyleMap Th) (p : ThemePath) (h : (m.loadThemeFile foreground files p).1 = false) :
    look (m.loadThemeFile foreground files p).2 = look m := by
  unfold loadThemeFile at h ⊢
  split
  · rfl
  · next n m' e =>
    have hm : look m' = look m := by
      simp only [loadInfo] at e
      split at e
      · cases e; rfl
      · cases e
    rw [e] at h
    simp only at h
    split
    · next c =>
      rw [if_pos c] at h
      exact (setTheme_told _ _ _ h).trans hm
    · exact hm

theorem removeThemeFile_told (files : ThemeFiles Th) (m : ThemeStyleMap Th) (p : ThemePath) (h : (m.removeThemeFile foreground files p).1 = false) :
    look (m.removeThemeFile foreground files p).2 = look m := by
  have hr : ∀ o m', m.removeTheme p = (o, m') → look m' = look m := by
    intro o m' h
    simp only [removeTheme] at h
    split at h <;> cases h <;> rfl
  unfold removeThemeFile at h ⊢
  split
  · next e => exact hr _ _ e
  · next e =>
    rw [e] at h
    simp only at h
    split
    · next c =>
      rw [if_pos c] at h
      exact (doSetTheme_told _ _ _ h).trans (hr _ _ e)
    · exact hr _ _ e

theorem syncDir_look (m : ThemeStyleMap Th) (ps : List ThemePath) : look (m.syncDir ps) = look m := by
  have h1 : ∀ (l : List ThemePath) (m : ThemeStyleMap Th), look (l.foldl (fun m p => ((m.loadInfo p).map Prod.snd).getD m) m) = look m := by
    intro l
    induction l with
    | nil => exact fun _ => rfl
    | cons p l ih =>
      intro m
      rw [List.foldl_cons, ih]
      simp only [loadInfo]
      split <;> rfl
  have h2 : ∀ (l : List ThemePath) (m : ThemeStyleMap Th), look (l.foldl (fun m p => (m.removeTheme p).2) m) = look m := by
    intro l
    induction l with
    | nil => exact fun _ => rfl
    | cons p l ih =>
      intro m
      rw [List.foldl_cons, ih]
      simp only [removeTheme]
      split <;> rfl
  unfold syncDir
  rw [h2, h1]

/-- **C85.** Whatever the files are and whatever happens to them, in any state: as long as the front end is not told and the views are not drawn again, the theme, its name and the
numbers of styles stay as they are. -/
theorem C85_told (files : ThemeFiles Th) (m : ThemeStyleMap Th) :
    (∀ ev, (handleThemesEvent foreground files m ev).1 = false → look (handleThemesEvent foreground files m ev).2 = look m) ∧
      ∀ n, (m.doSetTheme foreground files n).1 = false → look (m.doSetTheme foreground files n).2 = look m := by
  refine ⟨fun ev h => ?_, fun n h => doSetTheme_told files m n h⟩
  cases ev with
  | written p => exact loadThemeFile_told _ _ _ h
  | removed p =>
    simp only [handleThemesEvent] at h ⊢
    split
    · exact syncDir_look _ _
    · next c =>
      rw [if_neg c] at h
      exact removeThemeFile_told _ _ _ h
  | renamed a b =>
    simp only [handleThemesEvent, Bool.or_eq_false_iff] at h ⊢
    exact (loadThemeFile_told _ _ _ h.2).trans (removeThemeFile_told _ _ _ h.1)
  | touched p => exact syncDir_look _ _

/-! ## Examples -/

/-- Two themes of syntect. -/
def twoThemes : List (String × Nat) := [("InspiredGitHub", 1), ("Solarized", 2)]

/-- The core after its start, with the file of one theme. -/
def map0 : ThemeStyleMap Nat := ((ThemeStyleMap.new some twoThemes).get (by decide)).loadDir (ThemeFiles.discover [(pathOf "themes" "mine", some 10)])

/-- The user chooses the theme of the file, edits the file, and removes it. -/
example : ∃ m used, Reach some twoThemes "themes" [] m used ∧ m.themeName = defaultTheme ∧ m.theme = 1 := by
  have h0 : Reach some twoThemes "themes" [(pathOf "themes" "mine", some 10)] map0 [] :=
    .start _ _ (by
      intro e he
      obtain rfl := List.mem_singleton.mp he
      exact ⟨"mine", rfl, by decide⟩) (by simp)
  have h1 := Reach.act _ _ _ (.choose "mine") h0 trivial
  have h2 := Reach.act _ _ _ (.write "mine" (some 11)) h1 ⟨by decide, fun _ => ⟨by decide, rfl⟩⟩
  have h3 := Reach.act _ _ _ (.delete "mine") h2 (by show get? twoThemes "mine" = none; decide)
  exact ⟨_, _, h3, by decide, by decide⟩

/-- The theme of the file is shown as soon as it is edited. -/
example : (let f := [(pathOf "themes" "mine", some 10)]
    let m := ((Act.choose "mine").run some "themes" f map0).2
    let r := (Act.write "mine" (some 11)).run some "themes" f m
    (m.theme, r.1, r.2.theme)) = (10, true, 11) := by decide

/-- **C85, refuted.** The user chooses a theme of their own, then another one, edits the file of the first and chooses it again: they see the theme as it was before. -/
theorem C85_stale_refuted : ∃ m : ThemeStyleMap Nat, ∃ used, Reach some twoThemes "themes" [(pathOf "themes" "mine", some 10)] m used ∧
    (let a := Act.write "mine" (some 11)
    let f := a.onFiles "themes" [(pathOf "themes" "mine", some 10)]
    let m' := ((Act.choose "mine").run some "themes" f (a.run some "themes" [(pathOf "themes" "mine", some 10)] m).2).2
    m'.themeName = "mine" ∧ denote twoThemes "themes" f "mine" = some 11 ∧ m'.theme = 10) := by
  have h0 : Reach some twoThemes "themes" [(pathOf "themes" "mine", some 10)] map0 [] :=
    .start _ _ (by
      intro e he
      obtain rfl := List.mem_singleton.mp he
      exact ⟨"mine", rfl, by decide⟩) (by simp)
  have h1 := Reach.act _ _ _ (.choose "mine") h0 trivial
  have h2 := Reach.act _ _ _ (.choose "Solarized") h1 trivial
  exact ⟨_, _, h2, by decide⟩

/-- **C85, refuted.** A file in the folder that is no theme is deleted; it has the name of a theme of syntect, with another extension.  That theme is still in the list, but it cannot be chosen any more. -/
theorem C85_default_refuted :
    (let m := (handleThemesEvent some [] map0 (.removed ⟨"themes", "Solarized", some "bak"⟩)).2
    ("Solarized" ∈ m.themeNames) ∧ (m.doSetTheme some [] "Solarized").1 = false ∧ (map0.doSetTheme some [] "Solarized").1 = true) := by decide

/-- **C85, refuted.** A file is in the list of themes whatever its extension is. -/
theorem C85_extension_refuted : "notes" ∈ (handleThemesEvent some [(⟨"themes", "notes", some "txt"⟩, none)] map0 (.written ⟨"themes", "notes", some "txt"⟩)).2.themeNames := by decide

end Xi.Themes
