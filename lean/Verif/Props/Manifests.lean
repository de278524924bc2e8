import Verif.Spec.Manifests

/-!
# How plugins are found and loaded (core-lib/src/plugins/catalog.rs): C107
-/

namespace Xi

namespace Catalog

variable {T : Type}

section
variable {disk : Disk} {toml : Toml T}

/-- **C107.**  Exactly these manifests are found. -/
theorem C107_found (paths : List Path) (m : Path) : m ∈ findAllManifests disk paths ↔ ManifestAt disk paths m := by
  induction paths with
  | nil =>
    constructor
    · intro h; cases h
    · intro h; cases h with
      | here h => cases h
      | inside h => cases h
  | cons p paths ih =>
    have mono : ManifestAt disk paths m → ManifestAt disk (p :: paths) m := by
      intro h
      cases h with
      | here h1 h2 => exact .here (List.mem_cons_of_mem _ h1) h2
      | inside h1 h2 h3 h4 h5 => exact .inside (List.mem_cons_of_mem _ h1) h2 h3 h4 h5
    rw [findAllManifests]
    by_cases he : disk.exists_ ("manifest.toml" :: p) = true
    · rw [if_pos he, List.mem_cons, ih]
      constructor
      · rintro (rfl | h)
        · exact .here (List.mem_cons_self ..) he
        · exact mono h
      · intro h
        cases h with
        | here h1 h2 =>
          rcases List.mem_cons.1 h1 with rfl | h1
          · exact .inl rfl
          · exact .inr (.here h1 h2)
        | inside h1 h2 h3 h4 h5 =>
          rcases List.mem_cons.1 h1 with rfl | h1
          · rw [he] at h2; cases h2
          · exact .inr (.inside h1 h2 h3 h4 h5)
    · rw [if_neg he, List.mem_append, ih]
      have he' : disk.exists_ ("manifest.toml" :: p) = false := by simpa using he
      constructor
      · rintro (h | h)
        · rw [manifestsIn] at h
          split at h
          · cases h
          · rename_i items hd
            obtain ⟨h1, h2⟩ := List.mem_filter.1 h
            obtain ⟨name, h3, rfl⟩ := List.mem_map.1 h1
            obtain ⟨x, h4, h5⟩ := List.mem_filterMap.1 h3
            have h5 : x = some name := h5
            subst h5
            exact .inside (List.mem_cons_self ..) he' hd h4 h2
        · exact mono h
      · intro h
        cases h with
        | here h1 h2 =>
          rcases List.mem_cons.1 h1 with rfl | h1
          · exact absurd h2 he
          · exact .inr (.here h1 h2)
        | inside h1 h2 h3 h4 h5 =>
          rcases List.mem_cons.1 h1 with rfl | h1
          · left
            rw [manifestsIn, h3]
            exact List.mem_filter.2 ⟨List.mem_map.2 ⟨_, List.mem_filterMap.2 ⟨_, h4, rfl⟩, rfl⟩, h5⟩
          · exact .inr (.inside h1 h2 h3 h4 h5)

theorem lookup_put {K V : Type} [DecidableEq K] [BEq K] [LawfulBEq K] (m : List (K × V)) (k k' : K) (v : V) :
    (put m k v).lookup k' = if k' = k then some v else m.lookup k' := by
  have hf : ∀ l : List (K × V), k' ≠ k → (l.filter fun e => e.1 ≠ k).lookup k' = l.lookup k' := by
    intro l hne
    induction l with
    | nil => rfl
    | cons e l ih =>
      obtain ⟨a, b⟩ := e
      by_cases ha : a = k
      · subst ha
        rw [List.filter_cons_of_neg (by simp), ih, List.lookup_cons, beq_false_of_ne hne]
      · rw [List.filter_cons_of_pos (by simpa using ha), List.lookup_cons, List.lookup_cons, ih]
  rw [put, List.lookup_cons]
  by_cases h : k' = k
  · subst h
    simp
  · rw [beq_false_of_ne h, if_neg h]
    exact hf m h

theorem named_fold (name : String) : ∀ (found : List Path) (c : Plugins T),
    (found.foldl (Plugins.loadOne disk toml) c).named name =
      ((found.filterMap (loadManifest disk toml)).reverse.find? fun d => d.name = name).or (c.named name)
  | [], c => rfl
  | m :: found, c => by
    rw [List.foldl_cons, named_fold name found, Plugins.loadOne]
    cases h : loadManifest disk toml m with
    | none => rw [List.filterMap_cons_none h]
    | some d =>
      rw [List.filterMap_cons_some h, List.reverse_cons, List.find?_append, Option.or_assoc]
      congr 1
      rw [Plugins.named, lookup_put, List.find?_singleton]
      by_cases hn : name = d.name
      · subst hn
        simp
      · have : ¬ d.name = name := fun c => hn c.symm
        simp [hn, this, Plugins.named]

/-- **C107.**  A plugin can be had by its name exactly if a manifest with that name was found and could be loaded, or it was there before; of
several the last one counts.  A manifest that cannot be loaded makes no difference. -/
theorem C107_named (c : Plugins T) (paths : List Path) (name : String) : (c.load disk toml paths).named name =
    (((findAllManifests disk paths).filterMap (loadManifest disk toml)).reverse.find? fun d => d.name = name).or (c.named name) :=
  named_fold name _ c

/-- **C107.**  After loading anew there is nothing but what was found. -/
theorem C107_reload (c : Plugins T) (paths : List Path) (name : String) : (c.reload disk toml paths).named name =
    ((findAllManifests disk paths).filterMap (loadManifest disk toml)).reverse.find? fun d => d.name = name := by
  rw [Plugins.reload, C107_named]
  exact Option.or_none

theorem locations_fold (path : Path) : ∀ (found : List Path) (c : Plugins T),
    (found.foldl (Plugins.loadOne disk toml) c).locations.lookup path =
      (if path ∈ found then loadManifest disk toml path else none).or (c.locations.lookup path)
  | [], c => rfl
  | m :: found, c => by
    rw [List.foldl_cons, locations_fold path found, Plugins.loadOne]
    by_cases hp : path = m
    · subst hp
      cases h : loadManifest disk toml path with
      | none => simp
      | some d =>
        simp only [List.mem_cons, true_or, if_true, Option.some_or]
        rw [lookup_put, if_pos rfl]
        split <;> rfl
    · have : (path ∈ m :: found) = (path ∈ found) := by simp [hp]
      simp only [this]
      cases h : loadManifest disk toml m with
      | none => rfl
      | some d => rw [lookup_put, if_neg hp]

/-- **C107.**  For each place there is the plugin that the manifest there describes. -/
theorem C107_locations (c : Plugins T) (paths : List Path) (path : Path) : (c.load disk toml paths).locations.lookup path =
    (if path ∈ findAllManifests disk paths then loadManifest disk toml path else none).or (c.locations.lookup path) :=
  locations_fold path _ c

theorem languages_spec (dir : Path) : ∀ (langs out : List (Lang T)), loadLanguages disk toml dir langs = some out ↔ Pairwise2 (SettingsOf disk toml dir) langs out
  | [], out => by
    constructor
    · intro h; cases h; exact .nil
    · intro h; cases h; rfl
  | lang :: rest, out => by
    have ih := languages_spec dir rest
    rw [loadLanguages]
    by_cases he : disk.exists_ (String.ofList (Config.withExtension lang.name.toList "toml".toList) :: dir) = true
    · simp only [he, if_true]
      constructor
      · intro h
        simp only [bind, Option.bind_eq_some_iff, pure, Option.some.injEq] at h
        obtain ⟨text, h1, t, h2, rest', h3, rfl⟩ := h
        exact .cons (.file rfl he h1 h2) ((ih _).1 h3)
      · intro h
        cases h with
        | cons hs hr =>
          cases hs with
          | file hf h1 h2 h3 =>
            subst hf
            simp only [h2, h3, (ih _).2 hr, bind, Option.bind_some, pure]
          | none hn => rw [he] at hn; cases hn
    · simp only [he]
      constructor
      · intro h
        simp only [Bool.false_eq_true, if_false, bind, Option.bind_eq_some_iff, pure, Option.some.injEq] at h
        obtain ⟨rest', h3, rfl⟩ := h
        exact .cons (.none (by simpa using he)) ((ih _).1 h3)
      · intro h
        cases h with
        | cons hs hr =>
          cases hs with
          | file hf h1 h2 h3 => subst hf; exact absurd h1 he
          | none hn => simp [(ih _).2 hr]

/-- **C107.**  What a manifest in a folder becomes: its name, a program in that folder under its real name if its path begins with a dot, and
each language with the settings in its file in the folder.  It becomes nothing exactly if one of these is not there or cannot be read. -/
theorem C107_manifest (file : String) (dir : Path) (d : Loaded T) : loadManifest disk toml (file :: dir) = some d ↔
    ∃ text manifest, disk.read (file :: dir) = some text ∧ toml.manifest text = some manifest ∧ d.name = manifest.name ∧
      (match manifest.exec with
        | .dot names => ∃ p, disk.canonicalize (names ++ dir) = some p ∧ d.exec = .inl p
        | .other text => d.exec = .inr text) ∧
      Pairwise2 (SettingsOf disk toml dir) manifest.languages d.languages := by
  simp only [loadManifest, bind, Option.bind_eq_some_iff, pure, Option.some.injEq, List.tail_cons]
  constructor
  · rintro ⟨text, h1, manifest, h2, exec, h3, languages, h4, rfl⟩
    refine ⟨text, manifest, h1, h2, rfl, ?_, (languages_spec _ _ _).1 h4⟩
    cases hx : manifest.exec with
    | dot names =>
      rw [hx, resolveExec, Option.map_eq_some_iff] at h3
      obtain ⟨p, h5, rfl⟩ := h3
      exact ⟨p, h5, rfl⟩
    | other t =>
      rw [hx] at h3
      cases h3
      rfl
  · rintro ⟨text, manifest, h1, h2, h3, h4, h5⟩
    refine ⟨text, h1, manifest, h2, d.exec, ?_, d.languages, (languages_spec _ _ _).2 h5, by rw [← h3]⟩
    cases hx : manifest.exec with
    | dot names =>
      rw [hx] at h4
      obtain ⟨p, h6, h7⟩ := h4
      rw [resolveExec, h6, h7]
      rfl
    | other t =>
      rw [hx] at h4
      rw [h4]
      rfl

/-- **C107.**  A plugin that is removed is gone, and no other. -/
theorem C107_remove (c : Plugins T) (name name' : String) : (c.remove name).named name' = if name' = name then none else c.named name' := by
  rw [Plugins.named, Plugins.remove, Plugins.named]
  generalize c.items = l
  induction l with
  | nil => simp
  | cons e l ih =>
    obtain ⟨a, b⟩ := e
    by_cases ha : a = name
    · subst ha
      rw [List.filter_cons_of_neg (by simp), ih, List.lookup_cons]
      by_cases hn : name' = a
      · simp [hn]
      · rw [if_neg hn, if_neg hn, beq_false_of_ne hn]
    · rw [List.filter_cons_of_pos (by simpa using ha), List.lookup_cons, List.lookup_cons, ih]
      by_cases hn : name' = a
      · subst hn
        simp [ha]
      · rw [beq_false_of_ne hn]

end

/-! ## Cases -/

/-- Folders `/a` and `/b` with a manifest each, in `/`; `/a` has settings for its language. -/
def twoPlugins : Disk where
  exists_ p := p = ["manifest.toml", "a"] || p = ["manifest.toml", "b"] || p = ["Rust.toml", "a"]
  readDir p := if p = [] then some [some "a", none, some "b", some "c"] else none
  read p := if p = ["manifest.toml", "a"] then some "A" else if p = ["manifest.toml", "b"] then some "B" else if p = ["Rust.toml", "a"] then some "tabs" else none
  canonicalize p := some p

/-- What is in these files. -/
def twoTexts : Toml Nat where
  manifest t := if t = "A" then some ⟨"x", .dot ["run", "bin"], [⟨"Rust", none⟩, ⟨"C", none⟩]⟩ else if t = "B" then some ⟨"x", .other "run", [⟨"manifest", none⟩]⟩ else none
  table t := if t = "tabs" then some 4 else if t = "B" then some 7 else none

example : findAllManifests twoPlugins [[]] = [["manifest.toml", "a"], ["manifest.toml", "b"]] := by decide +kernel
example : loadManifest twoPlugins twoTexts ["manifest.toml", "a"] = some ⟨"x", .inl ["run", "bin", "a"], [⟨"Rust", some 4⟩, ⟨"C", none⟩]⟩ := by decide +kernel

/-- **C107, refuted.**  Of two plugins with the same name one is lost, without a word. -/
theorem C107_name_refuted : ∃ d d' : Loaded Nat, loadManifest twoPlugins twoTexts ["manifest.toml", "a"] = some d ∧ loadManifest twoPlugins twoTexts ["manifest.toml", "b"] = some d' ∧
    d ≠ d' ∧ ((({} : Plugins Nat).load twoPlugins twoTexts [[]]).items.map Prod.snd) = [d'] :=
  ⟨_, _, rfl, rfl, by decide +kernel, by decide +kernel⟩

/-- **C107, refuted.**  A language called `manifest` has the manifest for its settings. -/
theorem C107_manifest_refuted : (loadManifest twoPlugins twoTexts ["manifest.toml", "b"]).map (·.languages) = some [⟨"manifest", some 7⟩] := by decide +kernel

/-- **C107, refuted.**  A relative path that does not begin with a dot is not taken from the folder of the plugin. -/
theorem C107_relative_refuted : (loadManifest twoPlugins twoTexts ["manifest.toml", "b"]).map (·.exec) = some (.inr "run") := by decide +kernel

/-- **C107, refuted.**  Bad settings for one language are the end of the whole plugin. -/
theorem C107_settings_refuted : loadManifest twoPlugins { twoTexts with table := fun _ => none } ["manifest.toml", "a"] = none := by decide +kernel

/-- **C107, refuted.**  A manifest in a folder hides those of the folders in it. -/
theorem C107_hidden_refuted : findAllManifests { twoPlugins with exists_ := fun p => p.head? = some "manifest.toml" } [[]] = [["manifest.toml"]] := by decide +kernel

/-- **C107, refuted.**  A plugin that was removed is still kept for its place. -/
theorem C107_place_refuted : ∃ c : Plugins Nat, c = (({} : Plugins Nat).load twoPlugins twoTexts [[]]).remove "x" ∧ c.named "x" = none ∧
    (c.locations.lookup ["manifest.toml", "a"]).isSome := ⟨_, rfl, by decide +kernel, by decide +kernel⟩

end Catalog

end Xi
