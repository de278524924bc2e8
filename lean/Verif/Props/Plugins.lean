import Verif.Core.PluginsInv
/-!
# C93: plugins are started, told and stopped

The core starts plugins, tells them which views are open, tells the front end which plugins run, and forgets what a plugin said when it stops.
-/

namespace Xi

namespace Plugins

/-- **C93** No two processes have the same number, whether they run or are launched, and no two views; nothing is said to a process that has not connected. -/
theorem C93_ids (s t : Core) (hs : Fresh s) (h : Run Any s.launchAll t) :
    ((t.running ++ t.launching).map Proc.id).Nodup ∧ (t.views.map PView.id).Nodup ∧ ∀ p ∈ t.launching, heard t p.id = [] := by
  have := ids_run h hs.ids_all
  exact ⟨this.procs, this.views, this.quiet⟩

/-- **C93** When a plugin is stopped it hears `shutdown` and never anything again, never runs again under the same number, and none of the views that were open then
ever has its styles again, whatever it still sends. -/
theorem C93_stopped (s t u : Core) (name : List Char) (a b : List Proc) (p : Proc) (hs : Fresh s) (h : Run Any s.launchAll t)
    (hr : t.running = a ++ p :: b) (hn : p.name = name) (ha : ∀ q ∈ a, q.name ≠ name) (g : Run Any (t.stop name) u) :
    p.id ∉ (u.running ++ u.launching).map Proc.id ∧ heard u p.id = heard t p.id ++ [.shutdown] ∧
    ∀ v ∈ u.views, v.id ∈ t.views.map PView.id → p.id ∉ v.layers := by
  have hi := ids_run h hs.ids_all
  have hd : Dead p.id (t.views.map PView.id) (heard t p.id ++ [.shutdown]) (t.stop name) := by
    rcases stop_cases t name with ⟨_, h2⟩ | ⟨a', p', b', h1, h2, h3, h4⟩
    · exact absurd (List.mem_map.2 ⟨p, by simp [hr], hn⟩) h2
    · have he : p' = p := by
        have f1 : t.running.find? (fun q => q.name = name) = some p := by
          rw [hr, List.find?_append, List.find?_eq_none.2 (by simpa using ha)]
          simp [hn]
        have f2 : t.running.find? (fun q => q.name = name) = some p' := by
          rw [h1, List.find?_append, List.find?_eq_none.2 (by simpa using h3)]
          simp [h2]
        rw [f1] at f2
        exact (Option.some.inj f2).symm
      subst he
      rw [h4]
      have := hi.dead h1 [(p'.id, .shutdown)]
      simpa using this
  have := run_keep (R := free) (fun s op _ => free_allow s op) (fun _ _ h hp => h.prim hp) g hd
  exact ⟨this.procs, this.heard, fun v hv hg => (this.layers v hv hg).2⟩

/-- **C93** The same when a plugin ends by itself, except that nothing at all is sent to it. -/
theorem C93_exited (s t u : Core) (p : Proc) (hs : Fresh s) (h : Run Any s.launchAll t) (hp : p ∈ t.running) (g : Run Any (t.exit p.id) u) :
    p.id ∉ (u.running ++ u.launching).map Proc.id ∧ heard u p.id = heard t p.id ∧
    ∀ v ∈ u.views, v.id ∈ t.views.map PView.id → p.id ∉ v.layers := by
  have hi := ids_run h hs.ids_all
  have hd : Dead p.id (t.views.map PView.id) (heard t p.id) (t.exit p.id) := by
    rcases exit_cases t p.id with ⟨_, h2⟩ | ⟨a', p', b', h1, h2, h3, h4⟩
    · exact absurd (List.mem_map.2 ⟨p, hp, rfl⟩) h2
    · rw [h4, ← h2]
      have := hi.dead h1 []
      simpa using this
  have := run_keep (R := free) (fun s op _ => free_allow s op) (fun _ _ h hp => h.prim hp) g hd
  exact ⟨this.procs, this.heard, fun v hv hg => (this.layers v hv hg).2⟩

/-- **C93** A running plugin knows all open views, except some that are pending, and no others. -/
theorem C93_told (s t : Core) (hs : Fresh s) (h : Run Any s.launchAll t) (p : Proc) (hp : p ∈ t.running) (v : Nat) :
    (v ∈ t.views.map PView.id → v ∉ t.pending → v ∈ knows (heard t p.id)) ∧ (v ∈ knows (heard t p.id) → v ∈ t.views.map PView.id) := by
  have := run_keep (R := settled False) (ok := Any) (P := fun s => Told False s s.pending)
    (fun s op _ => ⟨by intros; trivial, by intro p _ hc; exact hc.elim, by intros; trivial, by intros; exact ⟨trivial, by intros; trivial⟩⟩)
    (fun _ _ h hp => h.prim hp) h hs.told
  have := this.told p hp
  exact ⟨this.1 v, this.2.1 v⟩

/-- **C93, in part**: a running plugin was told of each open view that is not pending exactly once, and of no others, if plugins connect only when no view is pending.
Missing: see `C93_told_refuted`. -/
theorem C93_told_partial (s t : Core) (hs : Fresh s) (h : Run Settled s.launchAll t) (p : Proc) (hp : p ∈ t.running) :
    (knows (heard t p.id)).Nodup ∧ ∀ v, v ∈ knows (heard t p.id) ↔ v ∈ t.views.map PView.id ∧ v ∉ t.pending := by
  have := run_keep (R := settled True) (ok := Settled) (P := fun s => Told True s s.pending)
    (fun s op ho => ⟨by intros; trivial, by intro p hp _; subst hp; exact ho, by intros; trivial, by intros; exact ⟨trivial, by intros; trivial⟩⟩)
    (fun _ _ h hp => h.prim hp) h hs.told
  obtain ⟨h1, h2, h3⟩ := this.told p hp
  exact ⟨(h3 trivial).1, fun v => ⟨fun hv => ⟨h2 v hv, (h3 trivial).2 v hv⟩, fun hv => h1 v hv.1 hv.2⟩⟩

/-- **C93, in part**: if only running plugins send notifications, every style of every view comes from a running plugin.  Missing: see `C93_late_refuted`. -/
theorem C93_layers_partial (s t : Core) (hs : Fresh s) (h : Run Alive s.launchAll t) (v : PView) (hv : v ∈ t.views) (id : Nat) (hid : id ∈ v.layers) :
    id ∈ t.running.map Proc.id := by
  have h0 : Layered s.launchAll := by
    have := (Fresh.launchAll_running (s := s)).2.1
    rw [hs.2.2.1] at this
    intro v hv
    rw [this] at hv
    cases hv
  exact run_keep (R := alive) (ok := Alive) (P := Layered)
    (fun s op ho => ⟨by intros; trivial, by intros; trivial, by intro id view n hn; subst hn; exact ho, by intros; exact ⟨trivial, by intros; trivial⟩⟩)
    (fun _ _ h hp => h.prim hp) h h0 v hv id hid

/-- **C93, in part**: no plugin runs twice, if nothing is started that is being launched.  Missing: see `C93_twice_refuted`. -/
theorem C93_single_partial (s t : Core) (hs : Fresh s) (h : Run Patient s.launchAll t) : (t.running.map Proc.name).Nodup := by
  have : Single t := run_keep (R := patient (fun _ => True) True) (ok := Patient) (P := Single)
    (fun s op ho => ⟨by intro name hn; subst hn; exact ho, by intros; trivial, by intros; trivial,
      by intro e he; subst he; exact ⟨trivial, fun u name hu => by simp only [patient]; rw [hu, show s.launching = [] from ho]; simp⟩⟩)
    (fun _ _ h hp => h.prim hp) h hs.single
  unfold Single at this
  rw [List.map_append, List.nodup_append] at this
  exact this.1

/-- **C93, in part**: the front end knows which plugins run, for all views that are not pending, if plugins connect before any view is finished, nothing is started that is
being launched, and the directory of the plugins does not change.  Missing: see `C93_front_refuted`. -/
theorem C93_front_partial (s t : Core) (hs : Fresh s) (h : Run Early s.launchAll t) (v : Nat) (hv : v ∈ t.views.map PView.id) (hn : v ∉ t.pending) (name : List Char) :
    name ∈ picture v t.client ↔ name ∈ t.running.map Proc.name := by
  have h0 : Pictured s.launchAll s.launchAll.pending := by
    have := (Fresh.launchAll_running (s := s)).2.1
    rw [hs.2.2.1] at this
    intro v hv
    rw [this] at hv
    cases hv
  have : Single t ∧ Pictured t t.pending := run_keep (R := patient (fun s => ∀ v ∈ s.views, v.id ∈ s.pending) False) (ok := Early) (P := fun s => Single s ∧ Pictured s s.pending)
    (fun s op ho => ⟨by intro name hn; subst hn; exact ho, by intro p hp; subst hp; exact ho, by intros; trivial, by intro e he; subst he; exact ho.elim⟩)
    (fun _ _ h hp => ⟨h.1.prim hp, h.2.prim h.1 hp⟩) h ⟨hs.single, h0⟩
  exact this.2 v hv hn name

/-- `str::contains` finds infixes. -/
theorem contains_iff (s pat : List Char) : contains s pat = true ↔ pat <:+: s := by
  induction s with
  | nil => simp [contains]
  | cons c s ih =>
    rw [contains, Bool.or_eq_true, ih, List.isPrefixOf_iff_prefix, List.infix_cons_iff]

theorem fromPath_text {path : List Char} {c : List Desc} (hc : ∀ d ∈ c, d.execPath.isSome) :
    ∃ r, fromPath (some path) c = some r ∧ (∀ d, r = some d → d ∈ c ∧ ∃ e, d.execPath = some e ∧ path <:+: e) ∧
      (r = none → ∀ d ∈ c, ∀ e, d.execPath = some e → ¬ path <:+: e) := by
  induction c with
  | nil => exact ⟨none, rfl, by simp, by simp⟩
  | cons d c ih =>
    obtain ⟨e, he⟩ := Option.isSome_iff_exists.1 (hc d (by simp))
    rw [fromPath.eq_def]
    simp only [he]
    split
    · rename_i hcon
      refine ⟨some d, rfl, ?_, by simp⟩
      intro d' hd'
      cases hd'
      exact ⟨by simp, e, he, (contains_iff _ _).1 hcon⟩
    · rename_i hcon
      obtain ⟨r, h1, h2, h3⟩ := ih (fun d hd => hc d (by simp [hd]))
      refine ⟨r, h1, fun d' hd' => ⟨by simp [(h2 d' hd').1], (h2 d' hd').2⟩, ?_⟩
      intro hr d' hd' e' he'
      rcases List.mem_cons.1 hd' with rfl | hd'
      · rw [he] at he'
        cases he'
        exact fun g => hcon ((contains_iff _ _).2 g)
      · exact h3 hr d' hd' e' he'

/-- **C93, in part**: when the only plugin whose program has a path in it is removed, that plugin stops and leaves the catalog, and no other does, if it ran at most once.
Missing: see `C93_path_refuted`. -/
theorem C93_removed_partial (s : Core) (path : List Char) (d : Desc) (hc : ∀ d' ∈ s.catalog, d'.execPath.isSome) (hd : d ∈ s.catalog)
    (hn : (s.running.map Proc.name).Nodup)
    (hp : ∀ d' ∈ s.catalog, (∃ e, d'.execPath = some e ∧ path <:+: e) ↔ d' = d) :
    ∃ t, s.step (.fsEvent (.removed (some path) true)) = some t ∧ t.running = s.running.filter (fun p => p.name ≠ d.name) ∧
      t.catalog = s.catalog.filter (fun d' => d'.name ≠ d.name) ∧ t.launching = s.launching := by
  obtain ⟨r, h1, h2, h3⟩ := fromPath_text (path := path) hc
  have hr : r = some d := by
    cases r with
    | none =>
      obtain ⟨e, he, hi⟩ := (hp d hd).2 rfl
      exact absurd hi (h3 rfl d hd e he)
    | some d' =>
      obtain ⟨g1, g2⟩ := h2 d' rfl
      rw [(hp d' g1).1 g2]
  subst hr
  refine ⟨((s.stop d.name).removeNamed d.name).announce, ?_, ?_, ?_, ?_⟩
  · simp [Core.step, Core.fsEvent, Core.stopAndRemove, h1]
  · rcases stop_cases s d.name with ⟨g, g2⟩ | ⟨a, p, b, g1, g2, g3, g4⟩
    · simp only [Core.announce, Core.removeNamed, g]
      rw [List.filter_eq_self.2]
      intro p hp
      have : p.name ≠ d.name := fun g => g2 (List.mem_map.2 ⟨p, hp, g⟩)
      simpa using this
    · simp only [Core.announce, Core.removeNamed, g4, Core.afterStop]
      rw [g1] at hn ⊢
      have hb : ∀ q ∈ b, q.name ≠ d.name := by
        intro q hq e
        simp only [List.map_append, List.map_cons, List.nodup_append, List.nodup_cons] at hn
        exact hn.2.1.1 (by rw [g2, ← e]; exact List.mem_map_of_mem hq)
      rw [List.filter_append, List.filter_cons, List.filter_eq_self.2 (by simpa using g3), List.filter_eq_self.2 (by simpa using hb)]
      simp [g2]
  · rcases stop_cases s d.name with ⟨g, g2⟩ | ⟨a, p, b, g1, g2, g3, g4⟩
    · simp only [Core.announce, Core.removeNamed, g]
    · simp only [Core.announce, Core.removeNamed, g4, Core.afterStop]
  · exact stop_launching s d.name

theorem stop_keeps (s : Core) (name : List Char) :
    (s.stop name).catalog = s.catalog ∧ (s.stop name).pending = s.pending ∧ (s.stop name).views.map PView.id = s.views.map PView.id := by
  rcases stop_cases s name with ⟨g, _⟩ | ⟨a, p, b, _, _, _, g⟩
  · rw [g]; exact ⟨rfl, rfl, rfl⟩
  · rw [g]; exact ⟨rfl, rfl, drop_views _ _⟩

theorem start_keeps (s : Core) (name : List Char) :
    (s.start name).catalog = s.catalog ∧ (s.start name).pending = s.pending ∧ (s.start name).views = s.views := by
  unfold Core.start
  split
  · exact ⟨rfl, rfl, rfl⟩
  · split <;> exact ⟨rfl, rfl, rfl⟩

/-- Pending views are open, and paths are text. -/
def Safe (s : Core) : Prop := (∀ v ∈ s.pending, v ∈ s.views.map PView.id) ∧ ∀ d ∈ s.catalog, d.execPath.isSome

theorem Safe.congr {s t : Core} (h : Safe s) (h1 : t.pending = s.pending) (h2 : t.views.map PView.id = s.views.map PView.id) (h3 : t.catalog = s.catalog) : Safe t := by
  unfold Safe
  rw [h1, h2, h3]
  exact h

theorem load_text {found c : List Desc} (hf : ∀ d ∈ found, d.execPath.isSome) (hc : ∀ d ∈ c, d.execPath.isSome) :
    ∀ d ∈ found.foldl (fun c d => c.filter (fun d' => d'.name ≠ d.name) ++ [d]) c, d.execPath.isSome := by
  induction found generalizing c with
  | nil => exact hc
  | cons x found ih =>
    refine ih (fun d hd => hf d (by simp [hd])) ?_
    intro d hd
    rcases List.mem_append.1 hd with hd | hd
    · exact hc d (List.mem_filter.1 hd).1
    · simp at hd; subst hd; exact hf d (by simp)

theorem Safe.loadAndStart {s : Core} (h : Safe s) (path : Option (List Char)) (found : List Desc) (hp : path.isSome) (hf : ∀ d ∈ found, d.execPath.isSome) :
    ∃ t, s.loadAndStart path found = some t ∧ Safe t := by
  obtain ⟨path, rfl⟩ := Option.isSome_iff_exists.1 hp
  have hl : Safe (s.load found) := ⟨h.1, load_text hf h.2⟩
  obtain ⟨r, h1, _⟩ := fromPath_text (path := path) hl.2
  simp only [Core.loadAndStart, h1, Option.map_some]
  cases r with
  | none => exact ⟨_, rfl, hl⟩
  | some d =>
    obtain ⟨g1, g2, g3⟩ := start_keeps (s.load found) d.name
    exact ⟨_, rfl, hl.congr g2 (by rw [g3]) g1⟩

theorem Safe.stopAndRemove {s : Core} (h : Safe s) (path : Option (List Char)) (hp : path.isSome) : ∃ t, s.stopAndRemove path = some t ∧ Safe t := by
  obtain ⟨path, rfl⟩ := Option.isSome_iff_exists.1 hp
  obtain ⟨r, h1, _⟩ := fromPath_text (path := path) h.2
  simp only [Core.stopAndRemove, h1, Option.map_some]
  cases r with
  | none => exact ⟨_, rfl, h⟩
  | some d =>
    obtain ⟨g1, g2, g3⟩ := stop_keeps s d.name
    have := h.congr g2 g3 g1
    exact ⟨_, rfl, this.1, fun d' hd' => this.2 d' (List.mem_filter.1 hd').1⟩

theorem Safe.restart {s : Core} (h : Safe s) (path : Option (List Char)) (hp : path.isSome) : ∃ t, s.restart path = some t ∧ Safe t := by
  obtain ⟨path, rfl⟩ := Option.isSome_iff_exists.1 hp
  obtain ⟨r, h1, _⟩ := fromPath_text (path := path) h.2
  simp only [Core.restart, h1, Option.map_some]
  cases r with
  | none => exact ⟨_, rfl, h⟩
  | some d =>
    obtain ⟨g1, g2, g3⟩ := stop_keeps s d.name
    obtain ⟨k1, k2, k3⟩ := start_keeps (s.stop d.name) d.name
    exact ⟨_, rfl, (h.congr g2 g3 g1).congr k2 (by rw [k3]) k1⟩

theorem finalize_some (pend : List Nat) (s : Core) (h : ∀ v ∈ pend, v ∈ s.views.map PView.id) :
    ∃ t, pend.foldlM (fun (s : Core) view => if s.views.any (fun v => v.id = view) then some (s.finishInit view) else none) s = some t ∧
      t.pending = s.pending ∧ t.catalog = s.catalog := by
  induction pend generalizing s with
  | nil => exact ⟨s, rfl, rfl, rfl⟩
  | cons v pend ih =>
    have hv : s.views.any (fun w => w.id = v) = true := by
      obtain ⟨w, hw, he⟩ := List.mem_map.1 (h v (by simp))
      exact List.any_eq_true.2 ⟨w, hw, by simpa using he⟩
    rw [List.foldlM_cons, if_pos hv]
    exact ih (s.finishInit v) (fun w hw => h w (by simp [hw]))

theorem Safe.step {s : Core} (h : Safe s) (op : Op) (ho : Sound s op) : ∃ t, s.step op = some t ∧ Safe t := by
  cases op with
  | start name => obtain ⟨g1, g2, g3⟩ := start_keeps s name; exact ⟨_, rfl, h.congr g2 (by rw [g3]) g1⟩
  | stop name => obtain ⟨g1, g2, g3⟩ := stop_keeps s name; exact ⟨_, rfl, h.congr g2 g3 g1⟩
  | connect p ok =>
    refine ⟨_, rfl, ?_⟩
    split
    · cases ok <;> exact h
    · exact h
  | exit id =>
    refine ⟨_, rfl, ?_⟩
    rcases exit_cases s id with ⟨g, _⟩ | ⟨a, p, b, _, _, _, g⟩
    · rw [g]; exact h
    · rw [g]; exact h.congr rfl (drop_views _ _) rfl
  | newView =>
    refine ⟨_, rfl, ?_, h.2⟩
    intro v hv
    simp only [Core.newView, List.map_append, List.mem_append, List.map_cons, List.map_nil] at hv ⊢
    exact hv.imp (h.1 v) id
  | finalize =>
    obtain ⟨t, h1, h2, h3⟩ := finalize_some s.pending { s with pending := [] } h.1
    refine ⟨t, h1, ?_, by rw [h3]; exact h.2⟩
    rw [h2]
    simp
  | closeView view =>
    refine ⟨_, rfl, ?_⟩
    unfold Core.closeView
    split
    · refine ⟨?_, h.2⟩
      intro v hv
      obtain ⟨w, hw, he⟩ := List.mem_map.1 (h.1 v hv)
      refine List.mem_map.2 ⟨w, List.mem_filter.2 ⟨hw, ?_⟩, he⟩
      have : v ≠ view := fun g => ho (g ▸ hv)
      simpa [he] using this
    · exact h
  | notification id view n =>
    simp only [Core.step, Core.notification]
    split
    · cases n with
      | scopes => exact ⟨_, rfl, h.congr rfl (onView_ids s view _ (fun v => addLayer_id v id)) rfl⟩
      | annotations => exact ⟨_, rfl, h.congr rfl (onView_ids s view _ (fun v => annotate_id v id)) rfl⟩
      | statusItem =>
        obtain ⟨p, hp, he⟩ := List.mem_map.1 (show id ∈ s.running.map Proc.id from ho)
        have : (s.running.find? (fun p => p.id = id)).isSome := List.find?_isSome.2 ⟨p, hp, by simpa using he⟩
        obtain ⟨q, hq⟩ := Option.isSome_iff_exists.1 this
        simp only [hq, Option.map_some]
        exact ⟨_, rfl, h⟩
    · exact ⟨_, rfl, h⟩
  | rpc view receiver => exact ⟨_, rfl, h⟩
  | fsEvent e =>
    have key : ∀ {o : Option Core}, (∃ t, o = some t ∧ Safe t) → ∃ t, o.map Core.announce = some t ∧ Safe t := by
      rintro o ⟨t, rfl, ht⟩
      exact ⟨_, rfl, ht⟩
    simp only [Core.step, Core.fsEvent]
    apply key
    cases e with
    | changed path found => exact h.loadAndStart path found ho.1 ho.2
    | removed path gone =>
      cases gone with
      | true => exact h.stopAndRemove path ho
      | false => exact h.restart path ho
    | renamed old new found =>
      obtain ⟨t, h1, h2⟩ := h.stopAndRemove old ho.1
      simp only [h1, Option.bind_some]
      exact h2.loadAndStart new found ho.2.1 ho.2.2
    | metadata path => exact h.restart path ho
    | other => exact ⟨_, rfl, h⟩

theorem Safe.run {s t : Core} (hs : Safe s) (h : Run Sound s t) : Safe t := by
  induction h with
  | refl => exact hs
  | step t u op _ h1 h2 ih =>
    obtain ⟨w, hw, hsafe⟩ := ih.step op h1
    rw [h2] at hw
    cases hw
    exact hsafe

/-- **C93, in part**: nothing panics, if views are not closed before they are finished, only running plugins ask for status items, and all paths are text.
Missing: see `C93_panic_refuted`. -/
theorem C93_panic_partial (s t : Core) (hs : Fresh s) (hc : ∀ d ∈ s.catalog, d.execPath.isSome) (h : Run Sound s.launchAll t) (op : Op) (ho : Sound t op) :
    t.step op ≠ none := by
  have h0 : Safe s.launchAll := by
    obtain ⟨_, _, h3, _, _, h6⟩ := Fresh.launchAll_running (s := s)
    refine ⟨?_, by rw [h6]; exact hc⟩
    rw [h3, hs.2.2.2.1]
    simp
  obtain ⟨u, hu, _⟩ := (h0.run h).step op ho
  rw [hu]
  simp

/-- A core with one plugin. -/
def one : Core := { catalog := [⟨"lint".toList, some "/p/lint/bin".toList⟩] }

/-- A core with two plugins. -/
def two : Core := { catalog := [⟨"lint".toList, some "/p/lint/bin".toList⟩, ⟨"lint-more".toList, some "/p/lint-more/bin".toList⟩] }

/-- The process of the first plugin. -/
def first : Proc := ⟨1, "lint".toList⟩

theorem one_fresh : Fresh one := by
  unfold Fresh
  decide +kernel

theorem two_fresh : Fresh two := by
  unfold Fresh
  decide +kernel

/-- Operations one after the other, each of which is allowed. -/
def after (ok : Core → Op → Prop) [∀ s op, Decidable (ok s op)] (s : Core) (ops : List Op) : Option Core :=
  ops.foldlM (fun s op => if ok s op then s.step op else none) s

theorem after_run (ok : Core → Op → Prop) [∀ s op, Decidable (ok s op)] (s : Core) (ops : List Op) (h : (after ok s ops).isSome) : Run ok s ((after ok s ops).get h) := by
  obtain ⟨t, ht⟩ := Option.isSome_iff_exists.1 h
  have key : ∀ (ops : List Op) (u : Core), Run ok s u → after ok u ops = some t → Run ok s t := by
    intro ops
    induction ops with
    | nil => intro u hu h; cases h; exact hu
    | cons op ops ih =>
      intro u hu h
      simp only [after, List.foldlM_cons, Option.bind_eq_bind, Option.bind_eq_some_iff] at h
      obtain ⟨w, hw, h⟩ := h
      split at hw
      · rename_i ho
        exact ih w (.step u w op hu ho hw) h
      · cases hw
  have : (after ok s ops).get h = t := by simp [ht]
  rw [this]
  exact key ops s .refl ht

instance (s : Core) (op : Op) : Decidable (Any s op) := inferInstanceAs (Decidable True)

instance (s : Core) (op : Op) : Decidable (Settled s op) := by unfold Settled; split <;> infer_instance

instance (s : Core) (op : Op) : Decidable (Alive s op) := by unfold Alive; split <;> infer_instance

instance (s : Core) (op : Op) : Decidable (Early s op) := by unfold Early; split <;> infer_instance

instance (s : Core) (op : Op) : Decidable (Sound s op) := by unfold Sound; split <;> infer_instance

instance (s : Core) (op : Op) : Decidable (Patient s op) := by unfold Patient; split <;> infer_instance

/-- A plugin connects, two views are opened and finished, it sends styles, one view is closed. -/
example : ∃ t, Run Settled two.launchAll t ∧ t.running = [first, ⟨2, "lint-more".toList⟩] ∧ t.views = [{ id := 5, layers := [1] }] ∧ knows (heard t 1) = [5] ∧
    heard t 1 = [.initialize [], .newBuffer 3, .newBuffer 5, .didClose 3] :=
  ⟨_, after_run Settled _ [.connect first true, .connect ⟨2, "lint-more".toList⟩ true, .newView, .newView, .finalize, .closeView 3, .notification 1 5 .scopes] (by decide +kernel),
    by decide +kernel⟩

/-- The same in other respects. -/
example : ∃ t u, Run Alive two.launchAll t ∧ Run Patient two.launchAll u ∧ t.views = [{ id := 3, layers := [1] }] ∧ u.running.map Proc.name = ["lint-more".toList, "lint".toList] ∧
    u.running.map Proc.id = [2, 3] :=
  ⟨_, _, after_run Alive _ [.connect first true, .newView, .notification 1 3 .scopes] (by decide +kernel),
    after_run Patient _ [.connect first true, .connect ⟨2, "lint-more".toList⟩ true, .stop "lint".toList, .start "lint".toList, .connect ⟨3, "lint".toList⟩ true] (by decide +kernel),
    by decide +kernel⟩

/-- A plugin is stopped, although it goes on sending styles. -/
example : ∃ t u, Run Any two.launchAll t ∧ Run Any (t.stop "lint".toList) u ∧ t.running = [first] ∧ t.views.map PView.id = [3] ∧ u.views = [{ id := 3, deleted := [1] }] ∧
    heard u 1 = [.initialize [], .newBuffer 3, .shutdown] ∧ u.client = t.client ++ [.stopped 3 "lint".toList] :=
  ⟨_, _, after_run Any _ [.connect first true, .newView, .finalize, .notification 1 3 .scopes] (by decide +kernel),
    after_run Any _ [.notification 1 3 .scopes] (by decide +kernel), by decide +kernel⟩

/-- The front end knows of it. -/
example : ∃ t, Run Early two.launchAll t ∧ t.views.map PView.id = [3] ∧ t.pending = [] ∧ picture 3 t.client = ["lint".toList] ∧ t.running = [first] :=
  ⟨_, after_run Early _ [.newView, .connect first true, .finalize] (by decide +kernel), by decide +kernel⟩

/-- One of two plugins is removed. -/
example : ∃ t, ({ two with running := [first, ⟨2, "lint-more".toList⟩] } : Core).step (.fsEvent (.removed (some "/p/lint-".toList) true)) = some t ∧ t.running = [first] :=
  ⟨(after Any { two with running := [first, ⟨2, "lint-more".toList⟩] } [.fsEvent (.removed (some "/p/lint-".toList) true)]).get (by decide +kernel), by decide +kernel⟩

/-- Everything that is allowed in one run. -/
example : ∃ t, Run Sound two.launchAll t ∧ t.views.map PView.id = [5] ∧ t.catalog.map Desc.name = ["lint-more".toList] :=
  ⟨_, after_run Sound _ [.connect first true, .newView, .newView, .finalize, .closeView 3, .notification 1 5 .statusItem, .fsEvent (.removed (some "/p/lint/".toList) true)]
    (by decide +kernel), by decide +kernel⟩

/-- **C93, refuted in general**: a plugin that connects while a view is pending is told of it twice. -/
theorem C93_told_refuted : ∃ (s t : Core) (p : Proc), Fresh s ∧ Run Any s.launchAll t ∧ p ∈ t.running ∧ t.views.map PView.id = [2] ∧ knows (heard t p.id) = [2, 2] :=
  ⟨one, _, first, one_fresh, after_run Any _ [.newView, .connect first true, .finalize] (by decide +kernel), by decide +kernel⟩

/-- **C93, refuted in general**: a plugin that was stopped and names a view that was opened later has styles in it, although it does not run. -/
theorem C93_late_refuted : ∃ (s t : Core) (v : PView) (id : Nat), Fresh s ∧ Run Any s.launchAll t ∧ v ∈ t.views ∧ id ∈ v.layers ∧ t.running = [] :=
  ⟨one, _, { id := 2, layers := [1] }, 1, one_fresh,
    after_run Any _ [.connect first true, .stop "lint".toList, .newView, .notification 1 2 .scopes] (by decide +kernel), by decide +kernel⟩

/-- **C93, refuted in general**: a plugin that is started before the first launch has come to an end runs twice, and still runs when it is stopped. -/
theorem C93_twice_refuted : ∃ (s t : Core), Fresh s ∧ Run Any s.launchAll t ∧ t.running.map Proc.name = ["lint".toList, "lint".toList] ∧
    (t.stop "lint".toList).running.map Proc.name = ["lint".toList] :=
  ⟨one, _, one_fresh, after_run Any _ [.start "lint".toList, .connect first true, .connect ⟨2, "lint".toList⟩ true] (by decide +kernel), by decide +kernel⟩

/-- **C93, refuted in general**: to stop a plugin that is being launched does nothing. -/
theorem C93_stop_refuted : ∃ (s t u : Core), Fresh s ∧ Run Any s.launchAll t ∧ Run Any (t.stop "lint".toList) u ∧ t.launching.map Proc.name = ["lint".toList] ∧
    u.running.map Proc.name = ["lint".toList] :=
  ⟨one, _, _, one_fresh, .refl, after_run Any _ [.connect first true] (by decide +kernel), by decide +kernel⟩

/-- **C93, refuted in general**: the front end is not told of a plugin that connects when a view is open; after a change in the directory of the plugins it is told that all
plugins run, even if none does. -/
theorem C93_front_refuted :
    (∃ (s t : Core), Fresh s ∧ Run Any s.launchAll t ∧ t.views.map PView.id = [2] ∧ t.pending = [] ∧ t.running = [first] ∧ picture 2 t.client = []) ∧
    (∃ (s t : Core), Fresh s ∧ Run Any s.launchAll t ∧ t.views.map PView.id = [2] ∧ t.pending = [] ∧ t.running = [] ∧ picture 2 t.client = ["lint".toList]) :=
  ⟨⟨one, _, one_fresh, after_run Any _ [.newView, .finalize, .connect first true] (by decide +kernel), by decide +kernel⟩,
    ⟨one, _, one_fresh, after_run Any _ [.connect first false, .newView, .finalize, .fsEvent .other] (by decide +kernel), by decide +kernel⟩⟩

/-- **C93, refuted in general**: the annotations of a plugin that was stopped stay. -/
theorem C93_annotations_refuted : ∃ (s t : Core) (v : PView) (id : Nat), Fresh s ∧ Run Alive s.launchAll t ∧ v ∈ t.views ∧ id ∈ v.annotations ∧ t.running = [] :=
  ⟨one, _, { id := 2, annotations := [1], deleted := [1] }, 1, one_fresh,
    after_run Alive _ [.connect first true, .newView, .notification 1 2 .annotations, .stop "lint".toList] (by decide +kernel), by decide +kernel⟩

/-- **C93, refuted in general**: a view that is closed before it is finished, a plugin that asks for a status item after it was stopped, and a path that is not text end the
core. -/
theorem C93_panic_refuted :
    (∃ (s t : Core), Fresh s ∧ Run Any s.launchAll t ∧ t.pending = [2] ∧ t.views = [] ∧ t.step .finalize = none) ∧
    (∃ (s t : Core), Fresh s ∧ Run Any s.launchAll t ∧ t.views.map PView.id = [2] ∧ heard t 1 = [.initialize [2], .shutdown] ∧
      t.step (.notification 1 2 .statusItem) = none) ∧
    (∃ (s t : Core), Fresh s ∧ Run Any s.launchAll t ∧ t.step (.fsEvent (.metadata none)) = none) :=
  ⟨⟨one, _, one_fresh, after_run Any _ [.newView, .closeView 2] (by decide +kernel), by decide +kernel⟩,
    ⟨one, _, one_fresh, after_run Any _ [.newView, .connect first true, .stop "lint".toList] (by decide +kernel), by decide +kernel⟩,
    ⟨one, _, one_fresh, .refl, by decide +kernel⟩⟩

/-- **C93, refuted in general**: when the directory `/p/lint` is removed, a plugin in `/p/lint-more` is stopped; a plugin whose program is elsewhere is not. -/
theorem C93_path_refuted :
    (∃ s t : Core, s.catalog = [⟨"lint-more".toList, some "/p/lint-more/bin".toList⟩] ∧ s.running = [⟨2, "lint-more".toList⟩] ∧
      s.step (.fsEvent (.removed (some "/p/lint".toList) true)) = some t ∧ t.running = [] ∧ t.catalog = []) ∧
    (∃ s t : Core, s.catalog = [⟨"lint".toList, some "/usr/bin/lint".toList⟩] ∧ s.running = [first] ∧
      s.step (.fsEvent (.removed (some "/p/lint".toList) true)) = some t ∧ t.running = [first] ∧ t.catalog.map Desc.name = ["lint".toList]) :=
  ⟨⟨{ catalog := [⟨"lint-more".toList, some "/p/lint-more/bin".toList⟩], running := [⟨2, "lint-more".toList⟩] }, { sent := [(2, .shutdown)] }, by decide +kernel⟩,
    ⟨{ catalog := [⟨"lint".toList, some "/usr/bin/lint".toList⟩], running := [first] }, { catalog := [⟨"lint".toList, some "/usr/bin/lint".toList⟩], running := [first] },
      by decide +kernel⟩⟩

end Plugins

end Xi
