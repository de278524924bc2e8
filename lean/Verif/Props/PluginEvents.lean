import Verif.Props.Plugins
/-!
# C93: events and starts

What single operations do to the plugins that run and are launched.
-/

namespace Xi

namespace Plugins

/-- **C93** At setup every plugin of the catalog is launched. -/
theorem C93_setup (s : Core) (hs : Fresh s) : s.launchAll.launching.map Proc.name = s.catalog.map Desc.name ∧ s.launchAll.running = [] := by
  have key : ∀ (c : List Desc) (t : Core), (c.foldl Core.launch t).launching.map Proc.name = t.launching.map Proc.name ++ c.map Desc.name := by
    intro c
    induction c with
    | nil => intro t; simp
    | cons d c ih =>
      intro t
      rw [List.foldl_cons, ih]
      simp [Core.launch]
  refine ⟨?_, by rw [Fresh.launchAll_running.1]; exact hs.1⟩
  have := key s.catalog s
  rw [hs.2.1] at this
  unfold Core.launchAll
  simpa using this

/-- **C93** A plugin of the catalog that does not run is launched when it is started; one that runs or is not in the catalog is not. -/
theorem C93_started (s : Core) (name : List Char) :
    (name ∉ s.running.map Proc.name → name ∈ s.catalog.map Desc.name →
      s.start name = { s with launching := s.launching ++ [⟨s.counter + 1, name⟩], counter := s.counter + 1 }) ∧
    (name ∈ s.running.map Proc.name ∨ name ∉ s.catalog.map Desc.name → s.start name = s) := by
  constructor
  · intro h1 h2
    unfold Core.start
    rw [if_neg]
    · obtain ⟨d, hd, he⟩ := List.mem_map.1 h2
      have hf : (s.named name).isSome := List.find?_isSome.2 ⟨d, hd, by simpa using he⟩
      obtain ⟨d', hd'⟩ := Option.isSome_iff_exists.1 hf
      have hn : d'.name = name := by simpa using List.find?_some hd'
      rw [hd']
      simp only [Core.launch, hn]
    · intro g
      obtain ⟨p, hp, he⟩ := List.any_eq_true.1 g
      exact h1 (List.mem_map.2 ⟨p, hp, by simpa using he⟩)
  · intro h
    unfold Core.start
    split
    · rfl
    · rename_i hr
      rcases h with h | h
      · obtain ⟨p, hp, he⟩ := List.mem_map.1 h
        exact absurd (List.any_eq_true.2 ⟨p, hp, by simpa using he⟩) hr
      · have : s.named name = none := by
          unfold Core.named
          rw [List.find?_eq_none]
          intro d hd
          simpa using fun g : d.name = name => h (List.mem_map.2 ⟨d, hd, g⟩)
        rw [this]

/-- **C93** An item for the status bar is ascribed to the plugin that asked for it. -/
theorem C93_status (s : Core) (hi : (s.running.map Proc.id).Nodup) (p : Proc) (hp : p ∈ s.running) (view : Nat) (hv : view ∈ s.views.map PView.id) :
    s.step (.notification p.id view .statusItem) = some { s with client := s.client ++ [.statusItem view p.name] } := by
  have hany : s.views.any (fun v => v.id = view) = true := by
    obtain ⟨w, hw, he⟩ := List.mem_map.1 hv
    exact List.any_eq_true.2 ⟨w, hw, by simpa using he⟩
  have hf : s.running.find? (fun q => q.id = p.id) = some p := by
    have : (s.running.find? (fun q => q.id = p.id)).isSome := List.find?_isSome.2 ⟨p, hp, by simp⟩
    obtain ⟨q, hq⟩ := Option.isSome_iff_exists.1 this
    have he : q.id = p.id := by simpa using List.find?_some hq
    rw [hq]
    congr 1
    have hm := List.mem_of_find?_eq_some hq
    generalize s.running = l at hi hp hm
    induction l with
    | nil => cases hp
    | cons x l ih =>
      simp only [List.map_cons, List.nodup_cons] at hi
      rcases List.mem_cons.1 hp with rfl | hp' <;> rcases List.mem_cons.1 hm with rfl | hm'
      · rfl
      · exact absurd (he ▸ List.mem_map_of_mem hm') hi.1
      · exact absurd (he.symm ▸ List.mem_map_of_mem hp') hi.1
      · exact ih hi.2 hp' hm'
  simp [Core.step, Core.notification, hany, hf]

/-- The only plugin of a catalog whose program has a path in it. -/
def Only (c : List Desc) (path : List Char) (d : Desc) : Prop :=
  d ∈ c ∧ ∀ d' ∈ c, d'.execPath.isSome ∧ ((∃ e, d'.execPath = some e ∧ path <:+: e) ↔ d' = d)

theorem Only.fromPath {c : List Desc} {path : List Char} {d : Desc} (h : Only c path d) : fromPath (some path) c = some (some d) := by
  obtain ⟨r, h1, h2, h3⟩ := fromPath_text (path := path) (fun d' hd' => (h.2 d' hd').1)
  rw [h1]
  cases r with
  | none =>
    obtain ⟨e, he, hi⟩ := ((h.2 d h.1).2).2 rfl
    exact absurd hi (h3 rfl d h.1 e he)
  | some d' =>
    obtain ⟨g1, g2⟩ := h2 d' rfl
    rw [((h.2 d' g1).2).1 g2]

/-- What stopping does if a plugin runs at most once. -/
theorem stop_single (s : Core) (name : List Char) (hn : (s.running.map Proc.name).Nodup) :
    (s.stop name).running = s.running.filter (fun p => p.name ≠ name) ∧ (s.stop name).launching = s.launching ∧ (s.stop name).catalog = s.catalog ∧
      (s.stop name).counter = s.counter := by
  rcases stop_cases s name with ⟨g, g2⟩ | ⟨a, p, b, g1, g2, g3, g4⟩
  · rw [g]
    refine ⟨?_, rfl, rfl, rfl⟩
    rw [List.filter_eq_self.2]
    intro p hp
    have : p.name ≠ name := fun g => g2 (List.mem_map.2 ⟨p, hp, g⟩)
    simpa using this
  · rw [g4]
    refine ⟨?_, rfl, rfl, rfl⟩
    simp only [Core.afterStop]
    rw [g1] at hn ⊢
    have hb : ∀ q ∈ b, q.name ≠ name := by
      intro q hq e
      simp only [List.map_append, List.map_cons, List.nodup_append, List.nodup_cons] at hn
      exact hn.2.1.1 (by rw [g2, ← e]; exact List.mem_map_of_mem hq)
    rw [List.filter_append, List.filter_cons, List.filter_eq_self.2 (by simpa using g3), List.filter_eq_self.2 (by simpa using hb)]
    simp [g2]

/-- **C93, in part**: when the metadata of the only plugin at a path change, or its path is said to be removed but is still there, it is stopped and launched anew, no other
plugin is, and the catalog stays. -/
theorem C93_restarted_partial (s : Core) (path : List Char) (d : Desc) (e : FsEvent) (he : e = .metadata (some path) ∨ e = .removed (some path) false)
    (hn : (s.running.map Proc.name).Nodup) (h : Only s.catalog path d) :
    ∃ t, s.step (.fsEvent e) = some t ∧ t.running = s.running.filter (fun p => p.name ≠ d.name) ∧ t.launching = s.launching ++ [⟨s.counter + 1, d.name⟩] ∧
      t.catalog = s.catalog := by
  obtain ⟨h1, h2, h3, h4⟩ := stop_single s d.name hn
  have hst := (C93_started (s.stop d.name) d.name).1 (by
    rw [h1]
    intro g
    obtain ⟨p, hp, he⟩ := List.mem_map.1 g
    have := (List.mem_filter.1 hp).2
    simp [he] at this) (by rw [h3]; exact List.mem_map_of_mem h.1)
  refine ⟨((s.stop d.name).start d.name).announce, ?_, ?_⟩
  · rcases he with rfl | rfl <;> simp [Core.step, Core.fsEvent, Core.restart, h.fromPath]
  · rw [hst]
    simp only [Core.announce, h1, h2, h3, h4]
    exact ⟨trivial, trivial, trivial⟩

/-- **C93, in part**: when a manifest appears or changes it takes the place of the one with the same name, and its plugin is launched if it does not run and its program alone has
the path in it. -/
theorem C93_changed_partial (s : Core) (path : List Char) (d : Desc) (h : Only (s.catalog.filter (fun d' => d'.name ≠ d.name) ++ [d]) path d) :
    ∃ t, s.step (.fsEvent (.changed (some path) [d])) = some t ∧ t.running = s.running ∧ t.catalog = s.catalog.filter (fun d' => d'.name ≠ d.name) ++ [d] ∧
      t.launching = if d.name ∈ s.running.map Proc.name then s.launching else s.launching ++ [⟨s.counter + 1, d.name⟩] := by
  have hc : (s.load [d]).catalog = s.catalog.filter (fun d' => d'.name ≠ d.name) ++ [d] := rfl
  have hf : fromPath (some path) (s.load [d]).catalog = some (some d) := by rw [hc]; exact h.fromPath
  refine ⟨((s.load [d]).start d.name).announce, ?_, ?_⟩
  · simp [Core.step, Core.fsEvent, Core.loadAndStart, hf]
  · by_cases hr : d.name ∈ s.running.map Proc.name
    · rw [(C93_started (s.load [d]) d.name).2 (Or.inl hr), if_pos hr]
      exact ⟨rfl, rfl, rfl⟩
    · rw [(C93_started (s.load [d]) d.name).1 hr (by rw [hc]; simp), if_neg hr]
      exact ⟨rfl, rfl, rfl⟩

/-- **C93, in part**: when the directory of a plugin is renamed, the plugin at the old path is stopped and leaves the catalog, and the one at the new path is launched. -/
theorem C93_renamed_partial (s : Core) (old new : List Char) (d d' : Desc) (hn : (s.running.map Proc.name).Nodup) (h : Only s.catalog old d)
    (h' : Only ((s.catalog.filter (fun x => x.name ≠ d.name)).filter (fun x => x.name ≠ d'.name) ++ [d']) new d')
    (hr : d'.name ∈ s.running.map Proc.name → d'.name = d.name) :
    ∃ t, s.step (.fsEvent (.renamed (some old) (some new) [d'])) = some t ∧ t.running = s.running.filter (fun p => p.name ≠ d.name) ∧
      t.launching = s.launching ++ [⟨s.counter + 1, d'.name⟩] ∧
      t.catalog = (s.catalog.filter (fun x => x.name ≠ d.name)).filter (fun x => x.name ≠ d'.name) ++ [d'] := by
  obtain ⟨h1, h2, h3, h4⟩ := stop_single s d.name hn
  have hc : (((s.stop d.name).removeNamed d.name).load [d']).catalog = (s.catalog.filter (fun x => x.name ≠ d.name)).filter (fun x => x.name ≠ d'.name) ++ [d'] := by
    simp only [Core.load, Core.removeNamed, h3, List.foldl_cons, List.foldl_nil]
  have hf : fromPath (some new) (((s.stop d.name).removeNamed d.name).load [d']).catalog = some (some d') := by rw [hc]; exact h'.fromPath
  have hst := (C93_started (((s.stop d.name).removeNamed d.name).load [d']) d'.name).1 (by
    intro g
    obtain ⟨p, hp, he⟩ := List.mem_map.1 g
    have hp' : p ∈ s.running.filter (fun p => p.name ≠ d.name) := by rw [← h1]; exact hp
    obtain ⟨k1, k2⟩ := List.mem_filter.1 hp'
    have := hr (he ▸ List.mem_map_of_mem k1)
    simp [he, this] at k2) (by rw [hc]; simp)
  refine ⟨((((s.stop d.name).removeNamed d.name).load [d']).start d'.name).announce, ?_, ?_⟩
  · simp [Core.step, Core.fsEvent, Core.stopAndRemove, Core.loadAndStart, h.fromPath, hf]
  · rw [hst]
    simp only [Core.announce, hc]
    refine ⟨h1, ?_, ?_⟩
    · simp only [Core.load, Core.removeNamed, h2, h4]
    · trivial

/-- A plugin changes, and is moved. -/
example : ∃ t u, ({ two with running := [first, ⟨2, "lint-more".toList⟩], counter := 2 } : Core).step (.fsEvent (.metadata (some "/p/lint/".toList))) = some t ∧
    t.running = [⟨2, "lint-more".toList⟩] ∧ t.launching = [⟨3, "lint".toList⟩] ∧
    t.step (.fsEvent (.renamed (some "/p/lint-".toList) (some "/p/new".toList) [⟨"new".toList, some "/p/new/bin".toList⟩])) = some u ∧
    u.running = [] ∧ u.launching.map Proc.name = ["lint".toList, "new".toList] ∧ u.catalog.map Desc.name = ["lint".toList, "new".toList] :=
  ⟨(after Any { two with running := [first, ⟨2, "lint-more".toList⟩], counter := 2 } [.fsEvent (.metadata (some "/p/lint/".toList))]).get (by decide +kernel),
    (after Any { two with running := [first, ⟨2, "lint-more".toList⟩], counter := 2 } [.fsEvent (.metadata (some "/p/lint/".toList)),
      .fsEvent (.renamed (some "/p/lint-".toList) (some "/p/new".toList) [⟨"new".toList, some "/p/new/bin".toList⟩])]).get (by decide +kernel), by decide +kernel⟩

/-- There is only one plugin at the path. -/
example : Only two.catalog "/p/lint-".toList ⟨"lint-more".toList, some "/p/lint-more/bin".toList⟩ := by
  refine ⟨by decide +kernel, ?_⟩
  intro d' hd'
  have hd2 : d' ∈ [(⟨"lint".toList, some "/p/lint/bin".toList⟩ : Desc), ⟨"lint-more".toList, some "/p/lint-more/bin".toList⟩] := hd'
  simp only [List.mem_cons, List.not_mem_nil, or_false] at hd2
  rcases hd2 with rfl | rfl
  · refine ⟨rfl, ⟨?_, fun h => absurd h (by decide +kernel)⟩⟩
    rintro ⟨e, he, hi⟩
    cases he
    exact absurd ((contains_iff _ _).2 hi) (by decide +kernel)
  · refine ⟨rfl, ⟨fun _ => rfl, fun _ => ⟨_, rfl, (contains_iff _ _).1 (by decide +kernel)⟩⟩⟩

end Plugins

end Xi
