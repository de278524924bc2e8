import Verif.Spec.Plugins
/-!
# Lemmas on running plugins

Each operation is a sequence of primitive changes, for which invariants are proved once.
-/

namespace Xi

namespace Plugins

/-- Which primitive changes are allowed. -/
structure Rules where
  join : Core → Prop
  note : Core → Nat → Prop
  announce : Prop
  launch : Core → List Char → Prop

/-- The primitive changes. -/
inductive Prim (R : Rules) (s : Core) : Core → Prop
  | launch (d : Desc) : d.name ∉ s.running.map Proc.name → R.launch s d.name → Prim R s (s.launch d)
  | drop (a : List Proc) (p : Proc) (b : List Proc) (bye : List (Nat × ToPlugin)) : s.running = a ++ p :: b → (bye = [] ∨ bye = [(p.id, .shutdown)]) →
      Prim R s (({ s with running := a ++ b, sent := s.sent ++ bye } : Core).afterStop p)
  | failed (p : Proc) : p ∈ s.launching → Prim R s { s with launching := s.launching.erase p }
  | connected (p : Proc) : p ∈ s.launching → R.join s →
      Prim R s { s with launching := s.launching.erase p, sent := s.sent ++ [(p.id, .initialize (s.views.map (·.id)))], running := s.running ++ [p] }
  | newView : Prim R s s.newView
  | finalize (s' : Core) : s.finalize = some s' → Prim R s s'
  | close (view : Nat) : Prim R s { s with views := s.views.filter (fun v => v.id ≠ view), sent := s.sent ++ s.running.map (fun p => (p.id, .didClose view)) }
  | scopes (id view : Nat) : R.note s id → Prim R s (s.onView view (·.addLayer id))
  | annotate (id view : Nat) : R.note s id → Prim R s (s.onView view (·.annotate id))
  | status (view : Nat) (name : List Char) : Prim R s { s with client := s.client ++ [.statusItem view name] }
  | rpc (view : Nat) (receiver : List Char) : Prim R s (s.rpc view receiver)
  | catalog (c : List Desc) : Prim R s { s with catalog := c }
  | announce (m : List ToClient) : R.announce → Prim R s { s with client := s.client ++ m }

/-- Sequences of primitive changes. -/
inductive Prims (R : Rules) (s : Core) : Core → Prop
  | refl : Prims R s s
  | step (t u : Core) : Prims R s t → Prim R t u → Prims R s u

theorem Prims.one {R : Rules} {s t : Core} (h : Prim R s t) : Prims R s t := .step s t .refl h

theorem Prims.trans {R : Rules} {s t u : Core} (h : Prims R s t) (g : Prims R t u) : Prims R s u := by
  induction g with
  | refl => exact h
  | step t u _ h2 ih => exact .step _ _ ih h2

theorem Prims.keep {R : Rules} {P : Core → Prop} (hP : ∀ s t, P s → Prim R s t → P t) {s t : Core} (h : Prims R s t) (hs : P s) : P t := by
  induction h with
  | refl => exact hs
  | step t u _ h2 ih => exact hP _ _ ih h2

theorem split_at {l : List Proc} {f : Proc → Bool} {i : Nat} {p : Proc} (h : l.findIdx? f = some i) (hp : l[i]? = some p) :
    f p = true ∧ ∃ a b, l = a ++ p :: b ∧ l.eraseIdx i = a ++ b ∧ ∀ q ∈ a, f q = false := by
  induction l generalizing i with
  | nil => simp at h
  | cons x l ih =>
    rw [List.findIdx?_cons] at h
    by_cases hx : f x
    · rw [if_pos hx] at h
      cases h
      simp at hp
      subst hp
      exact ⟨hx, [], l, by simp⟩
    · rw [if_neg hx] at h
      cases hi : l.findIdx? f with
      | none => rw [hi] at h; simp at h
      | some j =>
        rw [hi] at h
        simp at h
        subst h
        obtain ⟨h1, a, b, h2, h3, h4⟩ := ih hi (by simpa using hp)
        refine ⟨h1, x :: a, b, by rw [h2]; rfl, by simp [h3], ?_⟩
        intro q hq
        rcases List.mem_cons.1 hq with rfl | hq
        · simpa using hx
        · exact h4 q hq

/-- Stopping does nothing, or takes the first plugin with the name away. -/
theorem stop_cases (s : Core) (name : List Char) :
    (s.stop name = s ∧ name ∉ s.running.map Proc.name) ∨
    ∃ a p b, s.running = a ++ p :: b ∧ p.name = name ∧ (∀ q ∈ a, q.name ≠ name) ∧
      s.stop name = ({ s with running := a ++ b, sent := s.sent ++ [(p.id, .shutdown)] } : Core).afterStop p := by
  unfold Core.stop
  cases h : s.running.findIdx? (fun p => p.name = name) with
  | none =>
    left
    rw [List.findIdx?_eq_none_iff] at h
    refine ⟨rfl, ?_⟩
    intro hm
    obtain ⟨p, hp, he⟩ := List.mem_map.1 hm
    have := h p hp
    simp [he] at this
  | some i =>
    right
    have hi : i < s.running.length := by
      have := List.findIdx?_eq_some_iff_findIdx_eq.1 h
      exact this.1
    have hp : s.running[i]? = some s.running[i] := List.getElem?_eq_getElem hi
    simp only [hp]
    obtain ⟨h1, a, b, h2, h3, h4⟩ := split_at h hp
    exact ⟨a, s.running[i], b, h2, by simpa using h1, by intro q hq; simpa using h4 q hq, by rw [h3]⟩

theorem exit_cases (s : Core) (id : Nat) :
    (s.exit id = s ∧ id ∉ s.running.map Proc.id) ∨
    ∃ a p b, s.running = a ++ p :: b ∧ p.id = id ∧ (∀ q ∈ a, q.id ≠ id) ∧
      s.exit id = ({ s with running := a ++ b } : Core).afterStop p := by
  unfold Core.exit
  cases h : s.running.findIdx? (fun p => p.id = id) with
  | none =>
    left
    rw [List.findIdx?_eq_none_iff] at h
    refine ⟨rfl, ?_⟩
    intro hm
    obtain ⟨p, hp, he⟩ := List.mem_map.1 hm
    have := h p hp
    simp [he] at this
  | some i =>
    right
    have hi : i < s.running.length := by
      have := List.findIdx?_eq_some_iff_findIdx_eq.1 h
      exact this.1
    have hp : s.running[i]? = some s.running[i] := List.getElem?_eq_getElem hi
    simp only [hp]
    obtain ⟨h1, a, b, h2, h3, h4⟩ := split_at h hp
    exact ⟨a, s.running[i], b, h2, by simpa using h1, by intro q hq; simpa using h4 q hq, by rw [h3]⟩

theorem stop_launching (s : Core) (name : List Char) : (s.stop name).launching = s.launching := by
  rcases stop_cases s name with ⟨h, _⟩ | ⟨a, p, b, _, _, _, h⟩
  · rw [h]
  · rw [h]; rfl

theorem stop_prims (R : Rules) (s : Core) (name : List Char) : Prims R s (s.stop name) := by
  rcases stop_cases s name with ⟨h, _⟩ | ⟨a, p, b, h1, h2, _, h⟩
  · rw [h]; exact .refl
  · rw [h]; exact .one (.drop a p b _ h1 (Or.inr rfl))

theorem exit_prims (R : Rules) (s : Core) (id : Nat) : Prims R s (s.exit id) := by
  rcases exit_cases s id with ⟨h, _⟩ | ⟨a, p, b, h1, h2, _, h⟩
  · rw [h]; exact .refl
  · rw [h]
    have := Prim.drop (R := R) (s := s) a p b [] h1 (Or.inl rfl)
    rw [List.append_nil] at this
    exact .one this

theorem start_prims (R : Rules) (s : Core) (name : List Char) (h : R.launch s name) : Prims R s (s.start name) := by
  unfold Core.start
  split
  · exact .refl
  · rename_i hr
    cases hd : s.named name with
    | none => exact .refl
    | some d =>
      have hn : d.name = name := by
        have := List.find?_some hd
        simpa using this
      subst hn
      refine .one (.launch d ?_ h)
      intro hm
      obtain ⟨p, hp, he⟩ := List.mem_map.1 hm
      exact hr (List.any_eq_true.2 ⟨p, hp, by simpa using he⟩)

theorem loadAndStart_prims (R : Rules) (s t : Core) (path : Option (List Char)) (found : List Desc)
    (hl : ∀ (u : Core) name, u.launching = s.launching → R.launch u name) (h : s.loadAndStart path found = some t) : Prims R s t := by
  have h0 : Prims R s (s.load found) := .one (.catalog _)
  simp only [Core.loadAndStart, Option.map_eq_some_iff] at h
  obtain ⟨d, hd, rfl⟩ := h
  cases d with
  | none => exact h0
  | some d => exact h0.trans (start_prims R _ _ (hl _ _ rfl))

theorem stopAndRemove_prims (R : Rules) (s t : Core) (path : Option (List Char)) (h : s.stopAndRemove path = some t) :
    Prims R s t ∧ t.launching = s.launching := by
  simp only [Core.stopAndRemove, Option.map_eq_some_iff] at h
  obtain ⟨d, hd, rfl⟩ := h
  cases d with
  | none => exact ⟨.refl, rfl⟩
  | some d => exact ⟨(stop_prims R _ _).trans (.one (.catalog _)), stop_launching _ _⟩

theorem restart_prims (R : Rules) (s t : Core) (path : Option (List Char))
    (hl : ∀ (u : Core) name, u.launching = s.launching → R.launch u name) (h : s.restart path = some t) : Prims R s t := by
  simp only [Core.restart, Option.map_eq_some_iff] at h
  obtain ⟨d, hd, rfl⟩ := h
  cases d with
  | none => exact .refl
  | some d => exact (stop_prims R _ _).trans (start_prims R _ _ (hl _ _ (stop_launching _ _)))

/-- What the rules say of an operation. -/
def Rules.Allow (R : Rules) (s : Core) (op : Op) : Prop :=
  (∀ name, op = .start name → R.launch s name) ∧
  (∀ p, op = .connect p true → R.join s) ∧
  (∀ id view n, op = .notification id view n → R.note s id) ∧
  (∀ e, op = .fsEvent e → R.announce ∧ ∀ (u : Core) name, u.launching = s.launching → R.launch u name)

theorem step_prims (R : Rules) (s t : Core) (op : Op) (ha : R.Allow s op) (h : s.step op = some t) : Prims R s t := by
  obtain ⟨h1, h2, h3, h4⟩ := ha
  cases op with
  | start name => cases h; exact start_prims R s name (h1 name rfl)
  | stop name => cases h; exact stop_prims R s name
  | connect p ok =>
    cases h
    split
    · rename_i hp
      cases ok with
      | true => exact .one (.connected p hp (h2 p rfl))
      | false => exact .one (.failed p hp)
    · exact .refl
  | exit id => cases h; exact exit_prims R s id
  | newView => cases h; exact .one .newView
  | finalize => exact .one (.finalize t h)
  | closeView view =>
    cases h
    unfold Core.closeView
    split
    · exact .one (.close view)
    · exact .refl
  | notification id view n =>
    simp only [Core.step, Core.notification] at h
    split at h
    · cases n with
      | scopes => cases h; exact .one (.scopes id view (h3 _ _ _ rfl))
      | annotations => cases h; exact .one (.annotate id view (h3 _ _ _ rfl))
      | statusItem =>
        simp only [Option.map_eq_some_iff] at h
        obtain ⟨p, _, rfl⟩ := h
        exact .one (.status _ _)
    · cases h; exact .refl
  | rpc view receiver => cases h; exact .one (.rpc _ _)
  | fsEvent e =>
    obtain ⟨hA, hl⟩ := h4 e rfl
    simp only [Core.step, Core.fsEvent, Option.map_eq_some_iff] at h
    obtain ⟨u, hu, rfl⟩ := h
    refine Prims.trans ?_ (.one (.announce _ hA))
    cases e with
    | changed path found => exact loadAndStart_prims R s u path found hl hu
    | removed path gone =>
      cases gone with
      | true => exact (stopAndRemove_prims R s u path hu).1
      | false => exact restart_prims R s u path hl hu
    | renamed old new found =>
      simp only [Option.bind_eq_some_iff] at hu
      obtain ⟨w, hw, hu⟩ := hu
      obtain ⟨g1, g2⟩ := stopAndRemove_prims R s w old hw
      exact g1.trans (loadAndStart_prims R w u new found (by rw [g2]; exact hl) hu)
    | metadata path => exact restart_prims R s u path hl hu
    | other => cases hu; exact .refl

theorem run_keep {ok : Core → Op → Prop} {R : Rules} {P : Core → Prop} (hR : ∀ s op, ok s op → R.Allow s op) (hP : ∀ s t, P s → Prim R s t → P t)
    {s t : Core} (h : Run ok s t) (hs : P s) : P t := by
  induction h with
  | refl => exact hs
  | step t u op _ h1 h2 ih => exact (step_prims R t u op (hR _ _ h1) h2).keep hP ih

/-- The rules that allow everything. -/
def free : Rules := ⟨fun _ => True, fun _ _ => True, True, fun _ _ => True⟩

theorem free_allow (s : Core) (op : Op) : free.Allow s op := ⟨by intros; trivial, by intros; trivial, by intros; trivial, by intros; exact ⟨trivial, by intros; trivial⟩⟩

theorem launchAll_keep {P : Core → Prop} (hP : ∀ s d, P s → P (s.launch d)) {s : Core} (hs : P s) : P s.launchAll := by
  unfold Core.launchAll
  generalize s.catalog = c
  induction c generalizing s with
  | nil => exact hs
  | cons d c ih => exact ih (hP _ _ hs)

/-- Numbers are given once. -/
structure Ids (s : Core) : Prop where
  procs : ((s.running ++ s.launching).map Proc.id).Nodup
  procs_le : ∀ p ∈ s.running ++ s.launching, p.id ≤ s.counter
  views : (s.views.map PView.id).Nodup
  views_le : ∀ v ∈ s.views, v.id ≤ s.counter
  pending : s.pending.Nodup
  pending_le : ∀ v ∈ s.pending, v ≤ s.counter
  sent_le : ∀ m ∈ s.sent, m.1 ≤ s.counter
  quiet : ∀ p ∈ s.launching, heard s p.id = []

theorem removeLayer_id (v : PView) (id : Nat) : (v.removeLayer id).id = v.id := rfl

theorem addLayer_id (v : PView) (id : Nat) : (v.addLayer id).id = v.id := by unfold PView.addLayer; split <;> rfl

theorem annotate_id (v : PView) (id : Nat) : (v.annotate id).id = v.id := by unfold PView.annotate; split <;> rfl

theorem onView_ids (s : Core) (view : Nat) (f : PView → PView) (hf : ∀ v, (f v).id = v.id) : (s.onView view f).views.map PView.id = s.views.map PView.id := by
  simp only [Core.onView, List.map_map]
  apply List.map_congr_left
  intro v _
  simp only [Function.comp]
  split
  · exact hf v
  · rfl

theorem heard_append (s : Core) (m : List (Nat × ToPlugin)) (id : Nat) (t : Core) (h : t.sent = s.sent ++ m) :
    heard t id = heard s id ++ m.filterMap (fun m => if m.1 = id then some m.2 else none) := by
  simp [heard, h]

theorem heard_none {s : Core} {id : Nat} (h : ∀ m ∈ s.sent, m.1 ≠ id) : heard s id = [] := by
  simp only [heard, List.filterMap_eq_nil_iff]
  intro m hm
  simp [h m hm]

/-- Messages to all running plugins reach each once. -/
theorem heard_all {l : List Proc} (hn : (l.map Proc.id).Nodup) (m : ToPlugin) (id : Nat) :
    (l.map (fun p => (p.id, m))).filterMap (fun m => if m.1 = id then some m.2 else none) = if id ∈ l.map Proc.id then [m] else [] := by
  induction l with
  | nil => simp
  | cons p l ih =>
    simp only [List.map_cons, List.nodup_cons] at hn
    simp only [List.map_cons, List.filterMap_cons, ih hn.2]
    by_cases h : p.id = id
    · subst h
      simp [hn.1]
    · have h' : ¬ id = p.id := fun g => h g.symm
      simp [h, h']

/-- What finishing the views does, one by one. -/
theorem finalize_keep {P : Core → List Nat → Prop} (hP : ∀ s view rest, P s (view :: rest) → view ∈ s.views.map PView.id → P (s.finishInit view) rest)
    (pend : List Nat) {s t : Core}
    (h : pend.foldlM (fun s view => if s.views.any (fun v => v.id = view) then some (s.finishInit view) else none) s = some t) (hs : P s pend) : P t [] := by
  induction pend generalizing s with
  | nil => cases h; exact hs
  | cons v pend ih =>
    rw [List.foldlM_cons] at h
    simp only [Option.bind_eq_bind, Option.bind_eq_some_iff] at h
    obtain ⟨u, hu, h⟩ := h
    split at hu
    · rename_i hv
      cases hu
      refine ih h (hP _ _ _ hs ?_)
      obtain ⟨w, hw, he⟩ := List.any_eq_true.1 hv
      exact List.mem_map.2 ⟨w, hw, by simpa using he⟩
    · cases hu

theorem erase_sub {l : List Proc} {p q : Proc} (h : q ∈ l.erase p) : q ∈ l := List.mem_of_mem_erase h

theorem drop_views (s : Core) (p : Proc) : (s.afterStop p).views.map PView.id = s.views.map PView.id := by
  simp [Core.afterStop, List.map_map, Function.comp, PView.removeLayer]

theorem Ids.congr {s t : Core} (h : Ids s) (h1 : t.running = s.running) (h2 : t.launching = s.launching) (h3 : t.views.map PView.id = s.views.map PView.id)
    (h4 : t.pending = s.pending) (h5 : t.sent = s.sent) (h6 : t.counter = s.counter) : Ids t := by
  have hv : ∀ v ∈ t.views, v.id ≤ s.counter := by
    intro v hv
    have : v.id ∈ s.views.map PView.id := by rw [← h3]; exact List.mem_map_of_mem hv
    obtain ⟨w, hw, he⟩ := List.mem_map.1 this
    rw [← he]
    exact h.views_le w hw
  exact ⟨by rw [h1, h2]; exact h.procs, by rw [h1, h2, h6]; exact h.procs_le, by rw [h3]; exact h.views, by rw [h6]; exact hv, by rw [h4]; exact h.pending,
    by rw [h4, h6]; exact h.pending_le, by rw [h5, h6]; exact h.sent_le, by rw [h2]; intro p hp; simp only [heard, h5]; exact h.quiet p hp⟩

theorem Ids.disjoint {s : Core} (h : Ids s) : ∀ p ∈ s.launching, p.id ∉ s.running.map Proc.id := by
  have := h.procs
  rw [List.map_append, List.nodup_append] at this
  intro p hp hm
  exact this.2.2 _ hm _ (List.mem_map_of_mem hp) rfl

/-- Messages to running plugins only. -/
theorem Ids.send {s t : Core} (h : Ids s) (m : List (Nat × ToPlugin)) (hm : ∀ x ∈ m, x.1 ∈ s.running.map Proc.id)
    (h1 : t.running = s.running) (h2 : t.launching = s.launching) (h3 : t.views.map PView.id = s.views.map PView.id)
    (h4 : t.pending = s.pending) (h5 : t.sent = s.sent ++ m) (h6 : t.counter = s.counter) : Ids t := by
  have hi : Ids { t with sent := s.sent } := h.congr h1 h2 h3 h4 rfl h6
  refine ⟨hi.procs, hi.procs_le, hi.views, hi.views_le, hi.pending, hi.pending_le, ?_, ?_⟩
  · rw [h5, h6]
    intro x hx
    rcases List.mem_append.1 hx with hx | hx
    · exact h.sent_le x hx
    · obtain ⟨p, hp, he⟩ := List.mem_map.1 (hm x hx)
      rw [← he]
      exact h.procs_le p (by simp [hp])
  · rw [h2]
    intro p hp
    rw [heard_append s m p.id t h5, h.quiet p hp, List.nil_append, List.filterMap_eq_nil_iff]
    intro x hx
    have : x.1 ≠ p.id := fun g => h.disjoint p hp (g ▸ hm x hx)
    simp [this]

theorem Ids.launch {s : Core} (h : Ids s) (d : Desc) : Ids (s.launch d) := by
  obtain ⟨h1, h2, h3, h4, h5, h6, h7, h8⟩ := h
  refine ⟨?_, ?_, h3, ?_, h5, ?_, ?_, ?_⟩
  · simp only [Core.launch, ← List.append_assoc]
    rw [List.map_append, List.nodup_append]
    refine ⟨h1, by simp, ?_⟩
    intro x hx y hy
    obtain ⟨p, hp, rfl⟩ := List.mem_map.1 hx
    have := h2 p hp
    simp at hy
    omega
  · intro p hp
    simp only [Core.launch, ← List.append_assoc] at hp ⊢
    rcases List.mem_append.1 hp with hp | hp
    · have := h2 p hp; omega
    · simp at hp; subst hp; simp
  · intro v hv; have := h4 v hv; simp only [Core.launch]; omega
  · intro v hv; have := h6 v hv; simp only [Core.launch]; omega
  · intro v hv; have := h7 v hv; simp only [Core.launch]; omega
  · intro p hp
    rcases List.mem_append.1 hp with hp | hp
    · exact h8 p hp
    · simp at hp
      subst hp
      apply heard_none
      intro m hm
      have := h7 m hm
      simp only [ne_eq]
      omega

theorem finishInit_ids {s : Core} (h : Ids s) (view : Nat) : Ids (s.finishInit view) :=
  h.send (s.running.map (fun p => (p.id, .newBuffer view))) (by intro x hx; obtain ⟨p, hp, rfl⟩ := List.mem_map.1 hx; exact List.mem_map_of_mem hp) rfl rfl rfl rfl rfl rfl

theorem Ids.prim {R : Rules} {s t : Core} (h : Ids s) (hp : Prim R s t) : Ids t := by
  cases hp with
  | launch d _ _ => exact h.launch d
  | drop a p b bye hr hb =>
    have hsub : List.Sublist (a ++ b) s.running := by rw [hr]; exact List.Sublist.append_left (List.sublist_cons_self p b) a
    have hp : p ∈ s.running := by rw [hr]; simp
    refine ⟨?_, ?_, by rw [drop_views]; exact h.views, ?_, h.pending, h.pending_le, ?_, ?_⟩
    · exact List.Nodup.sublist ((List.Sublist.append_right hsub s.launching).map Proc.id) h.procs
    · intro q hq
      exact h.procs_le q ((List.Sublist.append_right hsub s.launching).mem hq)
    · intro v hv
      simp only [Core.afterStop, List.mem_map] at hv
      obtain ⟨w, hw, rfl⟩ := hv
      exact h.views_le w hw
    · intro m hm
      rcases List.mem_append.1 hm with hm | hm
      · exact h.sent_le m hm
      · have := h.procs_le p (by simp [hp])
        rcases hb with rfl | rfl
        · cases hm
        · simp at hm; subst hm; exact this
    · intro q hq
      rw [heard_append s bye q.id _ rfl, h.quiet q hq, List.nil_append, List.filterMap_eq_nil_iff]
      intro x hx
      have : x.1 ≠ q.id := by
        rcases hb with rfl | rfl
        · cases hx
        · simp at hx
          subst hx
          exact fun g => h.disjoint q hq (g ▸ List.mem_map_of_mem hp)
      simp [this]
  | failed p hp =>
    have hsub : List.Sublist (s.launching.erase p) s.launching := List.erase_sublist
    exact ⟨List.Nodup.sublist ((List.Sublist.append_left hsub s.running).map Proc.id) h.procs,
      fun q hq => h.procs_le q ((List.Sublist.append_left hsub s.running).mem hq), h.views, h.views_le, h.pending, h.pending_le, h.sent_le,
      fun q hq => h.quiet q (hsub.mem hq)⟩
  | connected p hp _ =>
    have hperm : List.Perm ((s.running ++ [p]) ++ s.launching.erase p) (s.running ++ s.launching) := by
      rw [List.append_assoc]
      exact List.Perm.append_left _ (List.perm_cons_erase hp).symm
    have hnd : (((s.running ++ [p]) ++ s.launching.erase p).map Proc.id).Nodup := (hperm.map Proc.id).nodup_iff.2 h.procs
    refine ⟨hnd, fun q hq => h.procs_le q (hperm.mem_iff.1 hq), h.views, h.views_le, h.pending, h.pending_le, ?_, ?_⟩
    · intro m hm
      rcases List.mem_append.1 hm with hm | hm
      · exact h.sent_le m hm
      · simp at hm; subst hm; exact h.procs_le p (by simp [hp])
    · intro q hq
      rw [heard_append s _ q.id _ rfl, h.quiet q (erase_sub hq), List.nil_append]
      have : p.id ≠ q.id := by
        rw [List.map_append, List.nodup_append] at hnd
        exact hnd.2.2 _ (List.mem_map_of_mem (by simp)) _ (List.mem_map_of_mem hq)
      simp [this]
  | newView =>
    refine ⟨h.procs, ?_, ?_, ?_, ?_, ?_, ?_, h.quiet⟩
    · intro p hp; have := h.procs_le p hp; simp only [Core.newView]; omega
    · simp only [Core.newView, List.map_append, List.nodup_append]
      refine ⟨h.views, by simp, ?_⟩
      intro x hx y hy
      obtain ⟨v, hv, rfl⟩ := List.mem_map.1 hx
      have := h.views_le v hv
      simp at hy
      omega
    · intro v hv
      rcases List.mem_append.1 hv with hv | hv
      · have := h.views_le v hv; simp only [Core.newView]; omega
      · simp at hv; subst hv; simp [Core.newView]
    · simp only [Core.newView, List.nodup_append]
      refine ⟨h.pending, by simp, ?_⟩
      intro x hx y hy
      have := h.pending_le x hx
      simp at hy
      omega
    · intro v hv
      rcases List.mem_append.1 hv with hv | hv
      · have := h.pending_le v hv; simp only [Core.newView]; omega
      · simp at hv; subst hv; simp [Core.newView]
    · intro m hm; have := h.sent_le m hm; simp only [Core.newView]; omega
  | finalize s' hf =>
    refine finalize_keep (P := fun s _ => Ids s) (fun s view rest hs _ => finishInit_ids hs view) s.pending hf ?_
    exact ⟨h.procs, h.procs_le, h.views, h.views_le, by simp, by simp, h.sent_le, h.quiet⟩
  | close view =>
    have := h.send (t := { s with sent := s.sent ++ s.running.map (fun p => (p.id, .didClose view)) }) (s.running.map (fun p => (p.id, .didClose view)))
      (by intro x hx; obtain ⟨p, hp, rfl⟩ := List.mem_map.1 hx; exact List.mem_map_of_mem hp) rfl rfl rfl rfl rfl rfl
    exact ⟨this.procs, this.procs_le, List.Nodup.sublist (List.filter_sublist.map _) h.views, fun v hv => h.views_le v (List.mem_filter.1 hv).1, this.pending,
      this.pending_le, this.sent_le, this.quiet⟩
  | scopes id view _ => exact h.congr rfl rfl (onView_ids s view _ (fun v => addLayer_id v id)) rfl rfl rfl
  | annotate id view _ => exact h.congr rfl rfl (onView_ids s view _ (fun v => annotate_id v id)) rfl rfl rfl
  | status view name => exact h.congr rfl rfl rfl rfl rfl rfl
  | rpc view receiver =>
    refine h.send ((s.running.filter (fun p => p.name = receiver)).map (fun p => (p.id, .command view))) ?_ rfl rfl rfl rfl rfl rfl
    intro x hx
    obtain ⟨p, hp, rfl⟩ := List.mem_map.1 hx
    exact List.mem_map_of_mem (List.mem_filter.1 hp).1
  | catalog c => exact h.congr rfl rfl rfl rfl rfl rfl
  | announce m _ => exact h.congr rfl rfl rfl rfl rfl rfl

theorem Fresh.ids {s : Core} (h : Fresh s) : Ids s := by
  obtain ⟨h1, h2, h3, h4, h5, h6, h7⟩ := h
  refine ⟨?_, ?_, ?_, ?_, ?_, ?_, ?_, ?_⟩ <;> simp [h1, h2, h3, h4, h5]

theorem Fresh.ids_all {s : Core} (h : Fresh s) : Ids s.launchAll := launchAll_keep (P := Ids) (fun _ d h => h.launch d) h.ids

theorem ids_run {ok : Core → Op → Prop} {s t : Core} (h : Run ok s t) (hs : Ids s) : Ids t :=
  run_keep (R := free) (fun s op _ => free_allow s op) (fun _ _ h hp => h.prim hp) h hs

end Plugins

end Xi
