import Verif.Core.PluginsLemmas
/-!
# Invariants of running plugins
-/

namespace Xi

namespace Plugins

theorem knows_append (l m : List ToPlugin) : knows (l ++ m) = m.foldl hear (knows l) := by simp [knows, List.foldl_append]

/-- What a plugin has heard is right, with some views still to be told of; `c` says that plugins connect only when none are. -/
def ToldOne (c : Prop) (views pend : List Nat) (known : List Nat) : Prop :=
  (∀ v ∈ views, v ∉ pend → v ∈ known) ∧ (∀ v ∈ known, v ∈ views) ∧ (c → known.Nodup ∧ ∀ v ∈ known, v ∉ pend)

/-- All running plugins have heard what is right. -/
structure Told (c : Prop) (s : Core) (pend : List Nat) : Prop where
  ids : Ids s
  once : pend.Nodup
  told : ∀ p ∈ s.running, ToldOne c (s.views.map PView.id) pend (knows (heard s p.id))

/-- The rules under which plugins connect only when no view is pending. -/
def settled (c : Prop) : Rules := ⟨fun s => c → s.pending = [], fun _ _ => True, True, fun _ _ => True⟩

theorem Ids.running {s : Core} (h : Ids s) : (s.running.map Proc.id).Nodup := by
  have := h.procs
  rw [List.map_append, List.nodup_append] at this
  exact this.1

theorem finishInit_told {c : Prop} {s : Core} {view : Nat} {rest : List Nat} (h : Told c s (view :: rest)) (hv : view ∈ s.views.map PView.id) :
    Told c (s.finishInit view) rest := by
  have hpn := List.nodup_cons.1 h.once
  refine ⟨finishInit_ids h.ids view, hpn.2, ?_⟩
  intro p hp
  obtain ⟨h1, h2, h3⟩ := h.told p hp
  have hh : heard (s.finishInit view) p.id = heard s p.id ++ [.newBuffer view] := by
    rw [heard_append s (s.running.map (fun p => (p.id, .newBuffer view))) p.id _ rfl, heard_all h.ids.running,
      if_pos (List.mem_map_of_mem (f := Proc.id) (show p ∈ s.running from hp))]
  rw [hh, knows_append]
  simp only [List.foldl_cons, List.foldl_nil, hear]
  refine ⟨?_, ?_, ?_⟩
  · intro v hv1 hv2
    by_cases hvv : v = view
    · simp [hvv]
    · exact List.mem_append_left _ (h1 v hv1 (by simp [hvv, hv2]))
  · intro v hv1
    rcases List.mem_append.1 hv1 with hv1 | hv1
    · exact h2 v hv1
    · simp at hv1; subst hv1; exact hv
  · intro hc
    obtain ⟨g1, g2⟩ := h3 hc
    refine ⟨?_, ?_⟩
    · rw [List.nodup_append]
      refine ⟨g1, by simp, ?_⟩
      intro x hx y hy
      simp at hy
      subst hy
      intro e
      subst e
      exact g2 x hx (by simp)
    · intro v hv1
      rcases List.mem_append.1 hv1 with hv1 | hv1
      · exact fun g => g2 v hv1 (List.mem_cons_of_mem _ g)
      · simp at hv1; subst hv1; exact hpn.1

theorem Told.congr {c : Prop} {s t : Core} (h : Told c s s.pending) (hi : Ids t) (h1 : t.running = s.running) (h3 : t.views.map PView.id = s.views.map PView.id)
    (h4 : t.pending = s.pending) (h5 : t.sent = s.sent) : Told c t t.pending := by
  refine ⟨hi, by rw [h4]; exact h.once, ?_⟩
  intro p hp
  rw [h1] at hp
  rw [h3, h4]
  simp only [heard, h5]
  exact h.told p hp

theorem Told.prim {c : Prop} {s t : Core} (h : Told c s s.pending) (hp : Prim (settled c) s t) : Told c t t.pending := by
  have hi := h.ids.prim hp
  cases hp with
  | launch d _ _ => exact h.congr hi rfl rfl rfl rfl
  | drop a p b bye hr hb =>
    refine ⟨hi, h.once, ?_⟩
    intro q hq
    have hq' : q ∈ s.running := by
      rw [hr]
      rcases List.mem_append.1 hq with hq | hq
      · simp [hq]
      · simp [hq]
    have hne : p.id ≠ q.id := by
      have := h.ids.running
      rw [hr] at this
      simp only [List.map_append, List.map_cons, List.nodup_append, List.nodup_cons] at this
      rcases List.mem_append.1 hq with hq | hq
      · exact fun g => this.2.2 _ (List.mem_map_of_mem hq) _ (List.mem_cons_self) g.symm
      · exact fun g => this.2.1.1 (g ▸ List.mem_map_of_mem hq)
    rw [drop_views, heard_append s bye q.id _ rfl]
    have : bye.filterMap (fun m => if m.1 = q.id then some m.2 else none) = [] := by
      rcases hb with rfl | rfl
      · rfl
      · simp [hne]
    rw [this, List.append_nil]
    exact h.told q hq'
  | failed p hp => exact h.congr hi rfl rfl rfl rfl
  | connected p hp hj =>
    refine ⟨hi, h.once, ?_⟩
    intro q hq
    rcases List.mem_append.1 hq with hq | hq
    · have hne : p.id ≠ q.id := fun g => h.ids.disjoint p hp (g ▸ List.mem_map_of_mem hq)
      rw [heard_append s _ q.id _ rfl]
      simp only [List.filterMap_cons, hne, if_false, List.filterMap_nil, List.append_nil]
      exact h.told q hq
    · simp at hq
      subst hq
      rw [heard_append s _ q.id _ rfl, h.ids.quiet q hp]
      simp only [List.filterMap_cons, if_true, List.filterMap_nil, List.nil_append]
      simp only [knows, List.foldl_cons, List.foldl_nil, hear, List.nil_append]
      refine ⟨fun v hv _ => hv, fun v hv => hv, fun hc => ⟨h.ids.views, ?_⟩⟩
      have := hj hc
      rw [this]
      simp
  | newView =>
    refine ⟨hi, hi.pending, ?_⟩
    intro p hp
    obtain ⟨h1, h2, h3⟩ := h.told p hp
    refine ⟨?_, ?_, ?_⟩
    · intro v hv hn
      simp only [Core.newView, List.map_append, List.mem_append, List.map_cons, List.map_nil, List.mem_singleton] at hv hn
      rcases hv with hv | hv
      · exact h1 v hv (fun g => hn (Or.inl g))
      · exact absurd (Or.inr hv) hn
    · intro v hv
      simp only [Core.newView, List.map_append]
      exact List.mem_append_left _ (h2 v hv)
    · intro hc
      obtain ⟨g1, g2⟩ := h3 hc
      refine ⟨g1, ?_⟩
      intro v hv hm
      rcases List.mem_append.1 hm with hm | hm
      · exact g2 v hv hm
      · simp at hm
        obtain ⟨w, hw, he⟩ := List.mem_map.1 (h2 v hv)
        have := h.ids.views_le w hw
        omega
  | finalize s' hf =>
    have hf2 := hf
    have hg := finalize_keep (P := fun t rest => Told c t rest ∧ t.pending = []) (fun u view rest hs hv => ⟨finishInit_told hs.1 hv, hs.2⟩) s.pending hf ⟨?_, rfl⟩
    · rw [hg.2]; exact hg.1
    · have hi2 : Ids { s with pending := [] } :=
        ⟨h.ids.procs, h.ids.procs_le, h.ids.views, h.ids.views_le, by simp, by simp, h.ids.sent_le, h.ids.quiet⟩
      exact ⟨hi2, h.once, h.told⟩
  | close view =>
    refine ⟨hi, h.once, ?_⟩
    intro p hp
    obtain ⟨h1, h2, h3⟩ := h.told p hp
    have hh := heard_append s (s.running.map (fun p => (p.id, .didClose view))) p.id
      { s with views := s.views.filter (fun v => v.id ≠ view), sent := s.sent ++ s.running.map (fun p => (p.id, .didClose view)) } rfl
    rw [heard_all h.ids.running, if_pos (List.mem_map_of_mem hp)] at hh
    rw [hh, knows_append]
    simp only [List.foldl_cons, List.foldl_nil, hear]
    have hvs : ∀ v, v ∈ (s.views.filter (fun v => v.id ≠ view)).map PView.id ↔ v ∈ s.views.map PView.id ∧ v ≠ view := by
      intro v
      simp only [List.mem_map, List.mem_filter, decide_eq_true_eq]
      constructor
      · rintro ⟨w, ⟨hw, hn⟩, rfl⟩
        exact ⟨⟨w, hw, rfl⟩, hn⟩
      · rintro ⟨⟨w, hw, rfl⟩, hn⟩
        exact ⟨w, ⟨hw, hn⟩, rfl⟩
    refine ⟨?_, ?_, ?_⟩
    · intro v hv hn
      obtain ⟨hv1, hv2⟩ := (hvs v).1 hv
      exact List.mem_filter.2 ⟨h1 v hv1 hn, by simpa using hv2⟩
    · intro v hv
      obtain ⟨hv1, hv2⟩ := List.mem_filter.1 hv
      exact (hvs v).2 ⟨h2 v hv1, by simpa using hv2⟩
    · intro hc
      obtain ⟨g1, g2⟩ := h3 hc
      exact ⟨List.Nodup.sublist List.filter_sublist g1, fun v hv => g2 v (List.mem_filter.1 hv).1⟩
  | scopes id view _ => exact h.congr hi rfl (onView_ids s view _ (fun v => addLayer_id v id)) rfl rfl
  | annotate id view _ => exact h.congr hi rfl (onView_ids s view _ (fun v => annotate_id v id)) rfl rfl
  | status view name => exact h.congr hi rfl rfl rfl rfl
  | rpc view receiver =>
    refine ⟨hi, h.once, ?_⟩
    intro p hp
    have hk : knows (heard (s.rpc view receiver) p.id) = knows (heard s p.id) := by
      rw [heard_append s ((s.running.filter (fun p => p.name = receiver)).map (fun p => (p.id, .command view))) p.id _ rfl,
        heard_all (List.Nodup.sublist (List.filter_sublist.map _) h.ids.running), knows_append]
      split <;> rfl
    rw [hk]
    exact h.told p hp
  | catalog c => exact h.congr hi rfl rfl rfl rfl
  | announce m _ => exact h.congr hi rfl rfl rfl rfl

theorem Fresh.launchAll_running {s : Core} : s.launchAll.running = s.running ∧ s.launchAll.views = s.views ∧ s.launchAll.pending = s.pending ∧
    s.launchAll.sent = s.sent ∧ s.launchAll.client = s.client ∧ s.launchAll.catalog = s.catalog :=
  launchAll_keep (P := fun t => t.running = s.running ∧ t.views = s.views ∧ t.pending = s.pending ∧ t.sent = s.sent ∧ t.client = s.client ∧ t.catalog = s.catalog)
    (fun _ _ h => h) ⟨rfl, rfl, rfl, rfl, rfl, rfl⟩

theorem Fresh.told {c : Prop} {s : Core} (h : Fresh s) : Told c s.launchAll s.launchAll.pending := by
  obtain ⟨h1, _, _, h4, _⟩ := Fresh.launchAll_running (s := s)
  refine ⟨h.ids_all, h.ids_all.pending, ?_⟩
  rw [h1, h.1]
  simp

/-- A plugin that does not run and is not launched; `gone` are views from which its styles were taken away. -/
structure Dead (id : Nat) (gone : List Nat) (said : List ToPlugin) (s : Core) : Prop where
  procs : id ∉ (s.running ++ s.launching).map Proc.id
  le : id ≤ s.counter
  heard : heard s id = said
  gone_le : ∀ v ∈ gone, v ≤ s.counter
  layers : ∀ v ∈ s.views, v.id ∈ gone → id ∈ v.deleted ∧ id ∉ v.layers

theorem Dead.send {id : Nat} {gone : List Nat} {said : List ToPlugin} {s t : Core} (h : Dead id gone said s) (m : List (Nat × ToPlugin))
    (hm : ∀ x ∈ m, x.1 ∈ s.running.map Proc.id) (h1 : t.running = s.running) (h2 : t.launching = s.launching)
    (h3 : ∀ v ∈ t.views, v.id ∈ gone → id ∈ v.deleted ∧ id ∉ v.layers) (h5 : t.sent = s.sent ++ m) (h6 : t.counter = s.counter) : Dead id gone said t := by
  refine ⟨by rw [h1, h2]; exact h.procs, by rw [h6]; exact h.le, ?_, by rw [h6]; exact h.gone_le, h3⟩
  rw [heard_append s m id t h5, h.heard]
  have : m.filterMap (fun m => if m.1 = id then some m.2 else none) = [] := by
    rw [List.filterMap_eq_nil_iff]
    intro x hx
    have : x.1 ≠ id := by
      intro g
      apply h.procs
      rw [List.map_append]
      exact List.mem_append_left _ (g ▸ hm x hx)
    simp [this]
  rw [this, List.append_nil]

theorem Dead.prim {id : Nat} {gone : List Nat} {said : List ToPlugin} {s t : Core} (h : Dead id gone said s) (hp : Prim free s t) : Dead id gone said t := by
  have hpr : ∀ p ∈ s.running ++ s.launching, p.id ≠ id := fun p hp g => h.procs (g ▸ List.mem_map_of_mem hp)
  cases hp with
  | launch d _ _ =>
    refine ⟨?_, Nat.le_succ_of_le h.le, h.heard, fun v hv => Nat.le_succ_of_le (h.gone_le v hv), h.layers⟩
    intro hm
    obtain ⟨p, hp, he⟩ := List.mem_map.1 hm
    simp only [Core.launch, ← List.append_assoc] at hp
    rcases List.mem_append.1 hp with hp | hp
    · exact hpr p hp he
    · simp at hp
      subst hp
      have := h.le
      simp at he
      omega
  | drop a p b bye hr hb =>
    have hpm : p ∈ s.running := by rw [hr]; simp
    have hsub : List.Sublist (a ++ b) s.running := by rw [hr]; exact List.Sublist.append_left (List.sublist_cons_self p b) a
    refine ⟨?_, h.le, ?_, h.gone_le, ?_⟩
    · intro hm
      obtain ⟨q, hq, he⟩ := List.mem_map.1 hm
      exact hpr q ((List.Sublist.append_right hsub s.launching).mem hq) he
    · rw [heard_append s bye id _ rfl, h.heard]
      have hne := hpr p (by simp [hpm])
      rcases hb with rfl | rfl <;> simp [hne]
    · intro v hv hg
      simp only [Core.afterStop, List.mem_map] at hv
      obtain ⟨w, hw, rfl⟩ := hv
      obtain ⟨g1, g2⟩ := h.layers w hw hg
      exact ⟨List.mem_cons_of_mem _ g1, fun g => g2 (List.mem_filter.1 g).1⟩
  | failed p hp =>
    refine ⟨?_, h.le, h.heard, h.gone_le, h.layers⟩
    intro hm
    obtain ⟨q, hq, he⟩ := List.mem_map.1 hm
    exact hpr q ((List.Sublist.append_left List.erase_sublist s.running).mem hq) he
  | connected p hp _ =>
    have hne := hpr p (by simp [hp])
    refine ⟨?_, h.le, ?_, h.gone_le, h.layers⟩
    · intro hm
      obtain ⟨q, hq, he⟩ := List.mem_map.1 hm
      simp only [List.mem_append, List.mem_singleton] at hq
      rcases hq with (hq | rfl) | hq
      · exact hpr q (by simp [hq]) he
      · exact hne he
      · exact hpr q (by simp [erase_sub hq]) he
    · rw [heard_append s _ id _ rfl, h.heard]
      simp [hne]
  | newView =>
    refine ⟨h.procs, Nat.le_add_right_of_le h.le, h.heard, fun v hv => Nat.le_add_right_of_le (h.gone_le v hv), ?_⟩
    intro v hv hg
    rcases List.mem_append.1 hv with hv | hv
    · exact h.layers v hv hg
    · simp at hv
      subst hv
      have := h.gone_le _ hg
      simp at this
      omega
  | finalize s' hf =>
    refine finalize_keep (P := fun s _ => Dead id gone said s) (fun s view rest hs _ => ?_) s.pending hf ?_
    · exact hs.send (s.running.map (fun p => (p.id, .newBuffer view))) (by intro x hx; obtain ⟨p, hp, rfl⟩ := List.mem_map.1 hx; exact List.mem_map_of_mem hp)
        rfl rfl hs.layers rfl rfl
    · exact ⟨h.procs, h.le, h.heard, h.gone_le, h.layers⟩
  | close view =>
    exact h.send (s.running.map (fun p => (p.id, .didClose view))) (by intro x hx; obtain ⟨p, hp, rfl⟩ := List.mem_map.1 hx; exact List.mem_map_of_mem hp)
      rfl rfl (fun v hv hg => h.layers v (List.mem_filter.1 hv).1 hg) rfl rfl
  | scopes id' view _ =>
    refine ⟨h.procs, h.le, h.heard, h.gone_le, ?_⟩
    intro v hv hg
    simp only [Core.onView, List.mem_map] at hv
    obtain ⟨w, hw, rfl⟩ := hv
    split at hg
    · rename_i hwv
      rw [if_pos hwv]
      rw [addLayer_id] at hg
      obtain ⟨g1, g2⟩ := h.layers w hw hg
      unfold PView.addLayer
      split
      · exact ⟨g1, g2⟩
      · rename_i hno
        refine ⟨g1, ?_⟩
        intro hm
        rcases List.mem_cons.1 hm with rfl | hm
        · exact hno (Or.inl g1)
        · exact g2 hm
    · rename_i hwv
      rw [if_neg hwv]
      exact h.layers w hw hg
  | annotate id' view _ =>
    refine ⟨h.procs, h.le, h.heard, h.gone_le, ?_⟩
    intro v hv hg
    simp only [Core.onView, List.mem_map] at hv
    obtain ⟨w, hw, rfl⟩ := hv
    split at hg
    · rename_i hwv
      rw [if_pos hwv]
      rw [annotate_id] at hg
      obtain ⟨g1, g2⟩ := h.layers w hw hg
      unfold PView.annotate
      split <;> exact ⟨g1, g2⟩
    · rename_i hwv
      rw [if_neg hwv]
      exact h.layers w hw hg
  | status view name => exact ⟨h.procs, h.le, h.heard, h.gone_le, h.layers⟩
  | rpc view receiver =>
    refine h.send ((s.running.filter (fun p => p.name = receiver)).map (fun p => (p.id, .command view))) ?_ rfl rfl h.layers rfl rfl
    intro x hx
    obtain ⟨p, hp, rfl⟩ := List.mem_map.1 hx
    exact List.mem_map_of_mem (List.mem_filter.1 hp).1
  | catalog c => exact ⟨h.procs, h.le, h.heard, h.gone_le, h.layers⟩
  | announce m _ => exact ⟨h.procs, h.le, h.heard, h.gone_le, h.layers⟩

/-- A plugin that was just taken away. -/
theorem Ids.dead {s : Core} (h : Ids s) {a b : List Proc} {p : Proc} (hr : s.running = a ++ p :: b) (bye : List (Nat × ToPlugin)) :
    Dead p.id (s.views.map PView.id) (Plugins.heard s p.id ++ bye.filterMap (fun m => if m.1 = p.id then some m.2 else none))
      (({ s with running := a ++ b, sent := s.sent ++ bye } : Core).afterStop p) := by
  refine ⟨?_, h.procs_le p (by simp [hr]), heard_append s bye p.id _ rfl, ?_, ?_⟩
  · have := h.procs
    rw [hr] at this
    have hperm : List.Perm (a ++ p :: b ++ s.launching) (p :: (a ++ b ++ s.launching)) := by
      rw [List.append_assoc, List.append_assoc]
      exact List.perm_middle
    have := (hperm.map Proc.id).nodup_iff.1 this
    rw [List.map_cons, List.nodup_cons] at this
    exact this.1
  · intro v hv
    obtain ⟨w, hw, rfl⟩ := List.mem_map.1 hv
    exact h.views_le w hw
  · intro v hv _
    simp only [Core.afterStop, List.mem_map] at hv
    obtain ⟨w, hw, rfl⟩ := hv
    simp [PView.removeLayer]

/-- The rules under which only running plugins send notifications. -/
def alive : Rules := ⟨fun _ => True, fun s id => id ∈ s.running.map Proc.id, True, fun _ _ => True⟩

/-- All styles come from running plugins. -/
def Layered (s : Core) : Prop := ∀ v ∈ s.views, ∀ id ∈ v.layers, id ∈ s.running.map Proc.id

theorem Layered.prim {s t : Core} (h : Layered s) (hp : Prim alive s t) : Layered t := by
  cases hp with
  | launch d _ _ => exact h
  | drop a p b bye hr hb =>
    intro v hv id hid
    simp only [Core.afterStop, List.mem_map] at hv
    obtain ⟨w, hw, rfl⟩ := hv
    obtain ⟨h1, h2⟩ := List.mem_filter.1 hid
    have := h w hw id h1
    rw [hr] at this
    simp only [List.map_append, List.map_cons, List.mem_append, List.mem_cons] at this
    have hne : id ≠ p.id := by simpa using h2
    simp only [Core.afterStop, List.map_append, List.mem_append]
    rcases this with this | this | this
    · exact Or.inl this
    · exact absurd this hne
    · exact Or.inr this
  | failed p hp => exact h
  | connected p hp _ =>
    intro v hv id hid
    simp only [List.map_append, List.mem_append]
    exact Or.inl (h v hv id hid)
  | newView =>
    intro v hv id hid
    rcases List.mem_append.1 hv with hv | hv
    · exact h v hv id hid
    · simp at hv; subst hv; cases hid
  | finalize s' hf => exact finalize_keep (P := fun s _ => Layered s) (fun s view rest hs _ => hs) s.pending hf h
  | close view => exact fun v hv id hid => h v (List.mem_filter.1 hv).1 id hid
  | scopes id' view hn =>
    intro v hv id hid
    simp only [Core.onView, List.mem_map] at hv
    obtain ⟨w, hw, rfl⟩ := hv
    split at hid
    · unfold PView.addLayer at hid
      split at hid
      · exact h w hw id hid
      · rcases List.mem_cons.1 hid with rfl | hid
        · exact hn
        · exact h w hw id hid
    · exact h w hw id hid
  | annotate id' view _ =>
    intro v hv id hid
    simp only [Core.onView, List.mem_map] at hv
    obtain ⟨w, hw, rfl⟩ := hv
    split at hid
    · unfold PView.annotate at hid
      split at hid <;> exact h w hw id hid
    · exact h w hw id hid
  | status view name => exact h
  | rpc view receiver => exact h
  | catalog c => exact h
  | announce m _ => exact h

/-- The rules under which nothing is started that is being launched. -/
def patient (join : Core → Prop) (announce : Prop) : Rules := ⟨join, fun _ _ => True, announce, fun s name => name ∉ s.launching.map Proc.name⟩

/-- No plugin runs or is launched twice. -/
def Single (s : Core) : Prop := ((s.running ++ s.launching).map Proc.name).Nodup

theorem Single.prim {join : Core → Prop} {announce : Prop} {s t : Core} (h : Single s) (hp : Prim (patient join announce) s t) : Single t := by
  cases hp with
  | launch d h1 h2 =>
    unfold Single Core.launch
    rw [← List.append_assoc, List.map_append, List.nodup_append]
    refine ⟨h, by simp, ?_⟩
    intro x hx y hy
    simp at hy
    subst hy
    rw [List.map_append, List.mem_append] at hx
    intro g
    subst g
    exact hx.elim h1 h2
  | drop a p b bye hr hb =>
    have hsub : List.Sublist (a ++ b) s.running := by rw [hr]; exact List.Sublist.append_left (List.sublist_cons_self p b) a
    exact List.Nodup.sublist ((List.Sublist.append_right hsub s.launching).map Proc.name) h
  | failed p hp => exact List.Nodup.sublist ((List.Sublist.append_left List.erase_sublist s.running).map Proc.name) h
  | connected p hp _ =>
    have hperm : List.Perm ((s.running ++ [p]) ++ s.launching.erase p) (s.running ++ s.launching) := by
      rw [List.append_assoc]
      exact List.Perm.append_left _ (List.perm_cons_erase hp).symm
    exact (hperm.map Proc.name).nodup_iff.2 h
  | newView => exact h
  | finalize s' hf => exact finalize_keep (P := fun s _ => Single s) (fun s view rest hs _ => hs) s.pending hf h
  | close view => exact h
  | scopes id' view hn => exact h
  | annotate id' view _ => exact h
  | status view name => exact h
  | rpc view receiver => exact h
  | catalog c => exact h
  | announce m _ => exact h

theorem Fresh.single {s : Core} (h : Fresh s) : Single s.launchAll := by
  obtain ⟨h1, h2, _, _, _, _, h7⟩ := h
  have key : ∀ (c : List Desc) (t : Core), t.running = [] → (t.launching.map Proc.name ++ c.map Desc.name).Nodup →
      Single (c.foldl Core.launch t) := by
    intro c
    induction c with
    | nil => intro t ht hn; simpa [Single, ht] using hn
    | cons d c ih =>
      intro t ht hn
      refine ih (t.launch d) ht ?_
      simpa [Core.launch] using hn
  exact key s.catalog s h1 (by simpa [h2] using h7)

theorem picture_append (view : Nat) (l m : List ToClient) : picture view (l ++ m) = m.foldl (learn view) (picture view l) := by
  simp [picture, List.foldl_append]

/-- The front end has the right picture of the views that are not pending. -/
def Pictured (s : Core) (pend : List Nat) : Prop :=
  ∀ v ∈ s.views.map PView.id, v ∉ pend → ∀ name, name ∈ picture v s.client ↔ name ∈ s.running.map Proc.name

theorem learn_stopped (view : Nat) (name : List Char) (l : List PView) (names : List (List Char)) :
    (l.map (fun v => ToClient.stopped v.id name)).foldl (learn view) names =
      if view ∈ l.map PView.id then names.filter (· ≠ name) else names := by
  induction l generalizing names with
  | nil => simp
  | cons v l ih =>
    rw [List.map_cons, List.foldl_cons, ih]
    by_cases hv : v.id = view
    · subst hv
      simp only [learn, List.map_cons, List.mem_cons, true_or, if_true]
      split
      · simp [List.filter_filter]
      · rfl
    · have hv' : ¬ view = v.id := fun g => hv g.symm
      simp [learn, hv, hv']

theorem learn_started (view w : Nat) (l : List Proc) (names : List (List Char)) (h : w ≠ view) :
    (l.map (fun p => ToClient.started w p.name)).foldl (learn view) names = names := by
  induction l generalizing names with
  | nil => rfl
  | cons p l ih => rw [List.map_cons, List.foldl_cons, ih]; simp [learn, h]

theorem finishInit_pictured {s : Core} {view : Nat} {rest : List Nat} (h : Pictured s (view :: rest)) : Pictured (s.finishInit view) rest := by
  intro v hv hn name
  by_cases hvv : view = v
  · subst hvv
    have : picture view (s.finishInit view).client = s.running.map Proc.name := by
      simp [Core.finishInit, ← List.append_assoc, picture_append, learn]
    rw [this]
    rfl
  · have : picture v (s.finishInit view).client = picture v s.client := by
      have : (s.finishInit view).client = (s.client ++ s.running.map (fun p => .started view p.name)) ++ [.available view (s.running.map (·.name))] := rfl
      rw [this, picture_append, picture_append, learn_started v view _ _ hvv]
      simp [learn, hvv]
    rw [this]
    exact h v hv (by simp [hn, Ne.symm hvv]) name

theorem Pictured.prim {s t : Core} (h : Pictured s s.pending) (hs : Single s) (hp : Prim (patient (fun s => ∀ v ∈ s.views, v.id ∈ s.pending) False) s t) :
    Pictured t t.pending := by
  cases hp with
  | launch d _ _ => exact h
  | drop a p b bye hr hb =>
    intro v hv hn name
    rw [drop_views] at hv
    have : picture v (({ s with running := a ++ b, sent := s.sent ++ bye } : Core).afterStop p).client = (picture v s.client).filter (· ≠ p.name) := by
      simp only [Core.afterStop]
      rw [picture_append, learn_stopped, if_pos hv]
    rw [this, List.mem_filter, h v hv hn name, hr]
    have hs' : ((a ++ p :: b).map Proc.name).Nodup := by
      unfold Single at hs
      rw [List.map_append, List.nodup_append] at hs
      rw [← hr]
      exact hs.1
    have := (List.perm_middle.map Proc.name).nodup_iff.1 hs'
    simp only [List.map_cons, List.nodup_cons, List.map_append, List.mem_append] at this
    simp only [Core.afterStop, List.map_append, List.mem_append, List.map_cons, List.mem_cons, decide_eq_true_eq]
    constructor
    · rintro ⟨h1 | h1 | h1, h2⟩
      · exact Or.inl h1
      · exact absurd h1 h2
      · exact Or.inr h1
    · intro h1
      exact ⟨h1.elim Or.inl (fun g => Or.inr (Or.inr g)), fun g => this.1 (g ▸ h1)⟩
  | failed p hp => exact h
  | connected p hp hj =>
    intro v hv hn
    obtain ⟨w, hw, rfl⟩ := List.mem_map.1 hv
    exact absurd (hj w hw) hn
  | newView =>
    intro v hv hn name
    simp only [Core.newView, List.map_append, List.mem_append, List.map_cons, List.map_nil, List.mem_singleton] at hv hn
    rcases hv with hv | hv
    · exact h v hv (fun g => hn (Or.inl g)) name
    · exact absurd (Or.inr hv) hn
  | finalize s' hf =>
    have hg := finalize_keep (P := fun t rest => Pictured t rest ∧ t.pending = []) (fun u view rest hs hv => ⟨finishInit_pictured hs.1, hs.2⟩) s.pending hf ⟨h, rfl⟩
    rw [hg.2]
    exact hg.1
  | close view =>
    intro v hv hn
    refine h v ?_ hn
    exact (List.filter_sublist.map PView.id).mem hv
  | scopes id view _ => intro v hv; rw [onView_ids s view _ (fun v => addLayer_id v id)] at hv; exact h v hv
  | annotate id view _ => intro v hv; rw [onView_ids s view _ (fun v => annotate_id v id)] at hv; exact h v hv
  | status view name =>
    intro v hv hn name'
    simp only [picture_append, List.foldl_cons, List.foldl_nil, learn]
    exact h v hv hn name'
  | rpc view receiver => exact h
  | catalog c => exact h
  | announce m hm => exact hm.elim

end Plugins

end Xi
