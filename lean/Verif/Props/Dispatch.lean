import Verif.Spec.Dispatch

/-!
# The views of a plugin (C108)
-/

namespace Xi

open Dispatch

namespace Dispatch

variable {J Cfg : Type}

private theorem lookup_filter_ne {α β : Type} [DecidableEq α] (m : List (α × β)) (k k' : α) :
    (m.filter fun e => e.1 ≠ k).lookup k' = if k' = k then none else m.lookup k' := by
  induction m with
  | nil => simp
  | cons e m ih =>
    obtain ⟨a, b⟩ := e
    by_cases h : a = k
    · subst h
      rw [List.filter_cons_of_neg (by simp), ih, List.lookup_cons]
      by_cases h' : k' = a
      · simp [h']
      · simp [h', beq_eq_false_iff_ne.2 h']
    · rw [List.filter_cons_of_pos (by simpa using h), List.lookup_cons, List.lookup_cons, ih]
      by_cases h' : k' = a
      · subst h'
        simp [h]
      · simp [beq_eq_false_iff_ne.2 h']

private theorem lookup_put {α β : Type} [DecidableEq α] (m : List (α × β)) (k k' : α) (v : β) :
    ((k, v) :: m.filter fun e => e.1 ≠ k).lookup k' = if k' = k then some v else m.lookup k' := by
  rw [List.lookup_cons, lookup_filter_ne]
  by_cases h : k' = k
  · simp [h]
  · simp [h, beq_eq_false_iff_ne.2 h]

theorem lookup_setView (m : List (Nat × View J Cfg)) (k k' : Nat) (v : View J Cfg) :
    (setView m k v).lookup k' = if k' = k then some v else m.lookup k' := lookup_put m k k' v

theorem lookup_setKey (m : Table J) (k k' : String) (v : J) : (setKey m k v).lookup k' = if k' = k then some v else m.lookup k' := lookup_put m k k' v

theorem lookup_changes (changes m : Table J) (k : String) :
    (changes.foldl (fun m e => setKey m e.1 e.2) m).lookup k = (changes.reverse.lookup k).or (m.lookup k) := by
  induction changes generalizing m with
  | nil => simp
  | cons e l ih =>
    rw [List.foldl_cons, ih, List.reverse_cons, List.lookup_append, lookup_setKey, List.lookup_cons]
    cases List.lookup k l.reverse with
    | some _ => simp
    | none =>
      by_cases h : k = e.1
      · simp [h]
      · simp [h, beq_eq_false_iff_ne.2 h]

theorem View.new_eq {decode : Table J → Option Cfg} {plugin : Nat} {info : Info J} {v : View J Cfg} (h : View.new decode plugin info = some v) :
    info.views = [v.id] ∧ v.plugin = plugin ∧ Mirrors decode v.id v info [] := by
  rw [View.new.eq_def] at h
  split at h
  · rename_i id hid
    split at h
    · cases h
    · rename_i config hc
      cases h
      exact ⟨hid, rfl, rfl, rfl, rfl, rfl, fun k => by simp, hc⟩
  · cases h

/-- One more thing said about one view. -/
def say (hist : Nat → List (Said J)) (id : Nat) (e : Said J) : Nat → List (Said J) := fun v => if v = id then e :: hist v else hist v

theorem Faithful.opened {decode : Table J → Option Cfg} {views : List (Nat × View J Cfg)} {hist : Nat → List (Said J)} (h : Faithful decode views hist)
    {info : Info J} {v : View J Cfg} (hv : Mirrors decode v.id v info []) : Faithful decode (setView views v.id v) (say hist v.id (.opened info)) := by
  intro id
  have h' := h id
  rw [lookup_setView]
  by_cases e : id = v.id
  · subst e
    simp only [say, if_true, sinceOpen]
    exact ⟨v, rfl, hv⟩
  · simp only [say, if_neg e]
    exact h'

theorem newViews_faithful {decode : Table J → Option Cfg} {plugin : Nat} {infos : List (Info J)} {d d' : Dispatcher J Cfg} {calls : List (Call J Cfg)}
    {hist : Nat → List (Said J)} (h : Faithful decode d.views hist) (hr : newViews decode plugin d infos = some (d', calls)) :
    Faithful decode d'.views fun v => ((infos.filter fun i => i.views = [v]).map Said.opened).reverse ++ hist v := by
  induction infos generalizing d calls hist with
  | nil =>
    cases hr
    exact h
  | cons info infos ih =>
    rw [newViews] at hr
    split at hr
    · cases hr
    · rename_i v hv
      obtain ⟨hid, hp, hm⟩ := View.new_eq hv
      split at hr
      · cases hr
      · rename_i d1 calls1 h1
        cases hr
        have h2 := ih (h.opened hm) h1
        intro id
        have h3 := h2 id
        simp only [say] at h3
        by_cases e : id = v.id
        · subst e
          simpa [List.filter_cons, hid] using h3
        · have e' : ¬ v.id = id := fun x => e x.symm
          simpa [List.filter_cons, hid, e, e'] using h3

theorem Faithful.change {decode : Table J → Option Cfg} {views : List (Nat × View J Cfg)} {hist : Nat → List (Said J)} (h : Faithful decode views hist)
    {id : Nat} {e : Said J} {v v' : View J Cfg} (hv : views.lookup id = some v)
    (he : ∀ es, sinceOpen (e :: es) = (sinceOpen es).map fun r => (r.1, e :: r.2))
    (hm : ∀ info since, Mirrors decode id v info since → Mirrors decode id v' info (e :: since)) : Faithful decode (setView views id v') (say hist id e) := by
  intro id'
  have h' := h id'
  rw [lookup_setView]
  by_cases q : id' = id
  · subst q
    simp only [say, if_true, he]
    cases hs : sinceOpen (hist id') with
    | none =>
      rw [hs] at h'
      simp only at h'
      rw [hv] at h'
      cases h'
    | some r =>
      obtain ⟨info, since⟩ := r
      rw [hs] at h'
      obtain ⟨w, hw, hm'⟩ := h'
      rw [hv] at hw
      cases hw
      exact ⟨v', rfl, hm _ _ hm'⟩
  · simp only [say, if_neg q]
    exact h'

theorem Faithful.missing {decode : Table J → Option Cfg} {views : List (Nat × View J Cfg)} {hist : Nat → List (Said J)} (h : Faithful decode views hist)
    {id : Nat} {e : Said J} (hv : views.lookup id = none) (he : ∀ es, sinceOpen es = none → sinceOpen (e :: es) = none) :
    Faithful decode views (say hist id e) := by
  intro id'
  have h' := h id'
  by_cases q : id' = id
  · subst q
    cases hs : sinceOpen (hist id') with
    | none =>
      simp only [say, if_true, he _ hs]
      exact hv
    | some r =>
      rw [hs] at h'
      obtain ⟨w, hw, _⟩ := h'
      rw [hv] at hw
      cases hw
  · simp only [say, if_neg q]
    exact h'

theorem said_eq_say (hist : Nat → List (Said J)) (id : Nat) (e : Said J) :
    (fun v => (if id = v then [e] else []).reverse ++ hist v) = say hist id e := by
  funext v
  by_cases h : id = v
  · simp [say, h]
  · have : ¬ v = id := fun x => h x.symm
    simp [say, h, this]

theorem step_faithful {decode : Table J → Option Cfg} {d d' : Dispatcher J Cfg} {m : Msg J} {calls : List (Call J Cfg)} {hist : Nat → List (Said J)}
    (h : Faithful decode d.views hist) (hr : d.step decode m = some (d', calls)) : Faithful decode d'.views fun v => (saidOf v m).reverse ++ hist v := by
  cases m with
  | start plugin infos =>
    simp only [Dispatcher.step, Dispatcher.initialize] at hr
    split at hr
    · cases hr
    · rw [Option.map_eq_some_iff] at hr
      obtain ⟨⟨d1, c1⟩, h1, h2⟩ := hr
      cases h2
      exact newViews_faithful (d := { d with pid := some plugin }) h h1
  | newBuffer infos =>
    simp only [Dispatcher.step, Dispatcher.newBuffer] at hr
    split at hr
    · cases hr
    · exact newViews_faithful h hr
  | didSave id path =>
    simp only [Dispatcher.step, Dispatcher.didSave] at hr
    simp only [saidOf, said_eq_say]
    split at hr
    · rename_i hv
      cases hr
      exact h.missing hv fun es hes => by simp [sinceOpen, hes]
    · rename_i v hv
      cases hr
      refine h.change hv (fun es => rfl) fun info since hm => ⟨hm.id, ?_, ?_, ?_, fun k => ?_, hm.config⟩
      · simp [List.findSome?_cons, Said.path?]
      · simpa [List.findSome?_cons, Said.language?] using hm.language
      · simpa [List.findSome?_cons, Said.update?] using hm.update
      · simpa [List.findSome?_cons, Said.setting?] using hm.settings k
  | configChanged id changes =>
    simp only [Dispatcher.step, Dispatcher.configChanged] at hr
    simp only [saidOf, said_eq_say]
    split at hr
    · rename_i hv
      cases hr
      exact h.missing hv fun es hes => by simp [sinceOpen, hes]
    · rename_i v hv
      split at hr
      · cases hr
      · rename_i config hc
        cases hr
        refine h.change hv (fun es => rfl) fun info since hm => ⟨hm.id, ?_, ?_, ?_, fun k => ?_, hc⟩
        · simpa [List.findSome?_cons, Said.path?] using hm.path
        · simpa [List.findSome?_cons, Said.language?] using hm.language
        · simpa [List.findSome?_cons, Said.update?] using hm.update
        · rw [lookup_changes, hm.settings k, List.findSome?_cons, Said.setting?]
          cases List.lookup k changes.reverse <;> simp
  | languageChanged id language =>
    simp only [Dispatcher.step, Dispatcher.languageChanged] at hr
    simp only [saidOf, said_eq_say]
    split at hr
    · rename_i hv
      cases hr
      exact h.missing hv fun es hes => by simp [sinceOpen, hes]
    · rename_i v hv
      cases hr
      refine h.change hv (fun es => rfl) fun info since hm => ⟨hm.id, ?_, ?_, ?_, fun k => ?_, hm.config⟩
      · simpa [List.findSome?_cons, Said.path?] using hm.path
      · simp [List.findSome?_cons, Said.language?]
      · simpa [List.findSome?_cons, Said.update?] using hm.update
      · simpa [List.findSome?_cons, Said.setting?] using hm.settings k
  | didClose id =>
    simp only [Dispatcher.step, Dispatcher.close] at hr
    simp only [saidOf, said_eq_say]
    split at hr
    · rename_i hv
      cases hr
      exact h.missing hv fun es hes => by simp [sinceOpen]
    · rename_i v hv
      cases hr
      intro id'
      have h' := h id'
      simp only [lookup_filter_ne]
      by_cases q : id' = id
      · simp [say, q, sinceOpen]
      · simp only [say, if_neg q]
        exact h'
  | update id size rev undoGroup =>
    simp only [Dispatcher.step, Dispatcher.update] at hr
    simp only [saidOf, said_eq_say]
    split at hr
    · rename_i hv
      cases hr
      exact h.missing hv fun es hes => by simp [sinceOpen, hes]
    · rename_i v hv
      cases hr
      refine h.change hv (fun es => rfl) fun info since hm => ⟨hm.id, ?_, ?_, ?_, fun k => ?_, hm.config⟩
      · simpa [List.findSome?_cons, Said.path?] using hm.path
      · simpa [List.findSome?_cons, Said.language?] using hm.language
      · simp [List.findSome?_cons, Said.update?]
      · simpa [List.findSome?_cons, Said.setting?] using hm.settings k
  | ask id =>
    simp only [Dispatcher.step] at hr
    split at hr <;> cases hr <;> simpa [saidOf] using h

theorem run_faithful {decode : Table J → Option Cfg} {msgs : List (Msg J)} {d d' : Dispatcher J Cfg} {calls : List (List (Call J Cfg))}
    {hist : Nat → List (Said J)} (h : Faithful decode d.views hist) (hr : d.run decode msgs = some (d', calls)) :
    Faithful decode d'.views fun v => history v msgs ++ hist v := by
  induction msgs generalizing d calls hist with
  | nil =>
    cases hr
    simpa [history] using h
  | cons m ms ih =>
    rw [Dispatcher.run] at hr
    split at hr
    · cases hr
    · rename_i d1 c1 h1
      rw [Option.map_eq_some_iff] at hr
      obtain ⟨⟨d2, c2⟩, h2, h3⟩ := hr
      cases h3
      have := ih (step_faithful h h1) h2
      simpa [history] using this

theorem newViews_heard {decode : Table J → Option Cfg} {plugin : Nat} {infos : List (Info J)} {d d' : Dispatcher J Cfg} {calls : List (Call J Cfg)}
    (hr : newViews decode plugin d infos = some (d', calls)) : d'.pid = d.pid ∧ ∃ vs : List (View J Cfg), calls = vs.map .newView ∧ vs.length = infos.length ∧
      ∀ p ∈ infos.zip vs, p.1.views = [p.2.id] ∧ p.2.plugin = plugin ∧ Mirrors decode p.2.id p.2 p.1 [] := by
  induction infos generalizing d calls with
  | nil =>
    cases hr
    exact ⟨rfl, [], rfl, rfl, by simp⟩
  | cons info infos ih =>
    rw [newViews] at hr
    split at hr
    · cases hr
    · rename_i v hv
      have hn := View.new_eq hv
      split at hr
      · cases hr
      · rename_i d1 calls1 h1
        cases hr
        obtain ⟨hp, vs, h2, h3, h4⟩ := ih h1
        refine ⟨hp, v :: vs, by simp [h2], by simp [h3], ?_⟩
        intro p hp
        rw [List.zip_cons_cons, List.mem_cons] at hp
        rcases hp with rfl | hp
        · exact hn
        · exact h4 p hp

theorem View.new_none {decode : Table J → Option Cfg} {plugin : Nat} {info : Info J} :
    View.new decode plugin info = none ↔ ¬ (info.views.length = 1 ∧ decode info.config ≠ none) := by
  rw [View.new.eq_def]
  split
  · rename_i id hid
    split <;> simp_all
  · rename_i hid
    simp only [true_iff]
    intro ⟨h, _⟩
    match hv : info.views, h with
    | [id], _ => exact hid id hv

theorem newViews_none {decode : Table J → Option Cfg} {plugin : Nat} {infos : List (Info J)} {d : Dispatcher J Cfg} :
    newViews decode plugin d infos = none ↔ ∃ i ∈ infos, ¬ (i.views.length = 1 ∧ decode i.config ≠ none) := by
  induction infos generalizing d with
  | nil => simp [newViews]
  | cons info infos ih =>
    rw [newViews]
    simp only [List.mem_cons, exists_eq_or_imp]
    split
    · rename_i h
      simp only [true_iff]
      exact .inl (View.new_none.1 h)
    · rename_i v h
      have h1 : ¬ ¬ (info.views.length = 1 ∧ decode info.config ≠ none) := fun x => by
        rw [View.new_none.2 x] at h
        cases h
      split
      · rename_i h2
        simp only [true_iff]
        exact .inr (ih.1 h2)
      · rename_i d1 c1 h2
        simp only [reduceCtorEq, false_iff]
        rintro (x | x)
        · exact h1 x
        · rw [ih.2 x] at h2
          cases h2

theorem newViews_others {decode : Table J → Option Cfg} {plugin : Nat} {infos : List (Info J)} {d d' : Dispatcher J Cfg} {calls : List (Call J Cfg)}
    {id : Nat} (hr : newViews decode plugin d infos = some (d', calls)) (h : ∀ i ∈ infos, i.views ≠ [id]) : d'.views.lookup id = d.views.lookup id := by
  induction infos generalizing d calls with
  | nil =>
    cases hr
    rfl
  | cons info infos ih =>
    rw [newViews] at hr
    split at hr
    · cases hr
    · rename_i v hv
      have hn := (View.new_eq hv).1
      split at hr
      · cases hr
      · rename_i d1 calls1 h1
        cases hr
        rw [ih h1 fun i hi => h i (.tail _ hi), lookup_setView, if_neg]
        rintro rfl
        exact h info (.head _) hn

theorem newViews_plugin {decode : Table J → Option Cfg} {plugin : Nat} {infos : List (Info J)} {d d' : Dispatcher J Cfg} {calls : List (Call J Cfg)}
    (hp : d.pid = some plugin) (ho : OfPlugin d) (hr : newViews decode plugin d infos = some (d', calls)) : OfPlugin d' := by
  induction infos generalizing d calls with
  | nil =>
    cases hr
    exact ho
  | cons info infos ih =>
    rw [newViews] at hr
    split at hr
    · cases hr
    · rename_i v hv
      have hn := (View.new_eq hv).2.1
      split at hr
      · cases hr
      · rename_i d1 calls1 h1
        cases hr
        refine ih (d := { d with views := setView d.views v.id v }) hp (fun id w hw => ?_) h1
        simp only [lookup_setView] at hw
        split at hw
        · cases hw
          rw [hn]
          exact hp
        · exact ho id w hw

theorem OfPlugin.set {d : Dispatcher J Cfg} (h : OfPlugin d) {id : Nat} {v v' : View J Cfg} (hv : d.views.lookup id = some v) (hp : v'.plugin = v.plugin) :
    OfPlugin { d with views := setView d.views id v' } := by
  intro id' w hw
  simp only [lookup_setView] at hw
  split at hw
  · cases hw
    rw [hp]
    exact h id v hv
  · exact h id' w hw

theorem step_plugin {decode : Table J → Option Cfg} {d d' : Dispatcher J Cfg} {m : Msg J} {calls : List (Call J Cfg)}
    (h : OfPlugin d ∧ (d.pid = none → d.views = [])) (hr : d.step decode m = some (d', calls)) : OfPlugin d' ∧ (d'.pid = none → d'.views = []) := by
  obtain ⟨h, he⟩ := h
  have key : ∀ {id v v'}, d.views.lookup id = some v → v'.plugin = v.plugin →
      OfPlugin { d with views := setView d.views id v' } ∧ (d.pid = none → setView d.views id v' = []) := by
    intro id v v' hv hp
    refine ⟨h.set hv hp, fun hn => ?_⟩
    rw [he hn] at hv
    cases hv
  cases m with
  | start plugin infos =>
    simp only [Dispatcher.step, Dispatcher.initialize] at hr
    split at hr
    · cases hr
    · rename_i hn
      rw [Option.map_eq_some_iff] at hr
      obtain ⟨⟨d1, c1⟩, h1, h2⟩ := hr
      cases h2
      have h1 : newViews decode plugin { d with pid := some plugin } infos = some (d1, c1) := h1
      refine ⟨newViews_plugin (d := { d with pid := some plugin }) rfl (fun id v hv => ?_) h1, fun hx => ?_⟩
      · simp only [he hn] at hv
        cases hv
      · rw [(newViews_heard h1).1] at hx
        cases hx
  | newBuffer infos =>
    simp only [Dispatcher.step, Dispatcher.newBuffer] at hr
    split at hr
    · cases hr
    · rename_i plugin hn
      refine ⟨newViews_plugin hn h hr, fun hx => ?_⟩
      rw [(newViews_heard hr).1, hn] at hx
      cases hx
  | didSave id path =>
    simp only [Dispatcher.step, Dispatcher.didSave] at hr
    split at hr
    · cases hr
      exact ⟨h, he⟩
    · rename_i v hv
      cases hr
      exact key hv rfl
  | configChanged id changes =>
    simp only [Dispatcher.step, Dispatcher.configChanged] at hr
    split at hr
    · cases hr
      exact ⟨h, he⟩
    · rename_i v hv
      split at hr
      · cases hr
      · cases hr
        exact key hv rfl
  | languageChanged id language =>
    simp only [Dispatcher.step, Dispatcher.languageChanged] at hr
    split at hr
    · cases hr
      exact ⟨h, he⟩
    · rename_i v hv
      cases hr
      exact key hv rfl
  | didClose id =>
    simp only [Dispatcher.step, Dispatcher.close] at hr
    split at hr
    · cases hr
      exact ⟨h, he⟩
    · rename_i v hv
      cases hr
      refine ⟨fun id' w hw => ?_, fun hn => by simp [he hn]⟩
      simp only [lookup_filter_ne] at hw
      split at hw
      · cases hw
      · exact h id' w hw
  | update id size rev undoGroup =>
    simp only [Dispatcher.step, Dispatcher.update] at hr
    split at hr
    · cases hr
      exact ⟨h, he⟩
    · rename_i v hv
      cases hr
      exact key hv rfl
  | ask id =>
    simp only [Dispatcher.step] at hr
    split at hr <;> cases hr <;> exact ⟨h, he⟩

theorem run_plugin {decode : Table J → Option Cfg} {msgs : List (Msg J)} {d d' : Dispatcher J Cfg} {calls : List (List (Call J Cfg))}
    (h : OfPlugin d ∧ (d.pid = none → d.views = [])) (hr : d.run decode msgs = some (d', calls)) : OfPlugin d' := by
  induction msgs generalizing d calls with
  | nil =>
    cases hr
    exact h.1
  | cons m ms ih =>
    rw [Dispatcher.run] at hr
    split at hr
    · cases hr
    · rename_i d1 c1 h1
      rw [Option.map_eq_some_iff] at hr
      obtain ⟨⟨d2, c2⟩, h2, h3⟩ := hr
      cases h3
      exact ih (step_plugin h h1) h2

/-- The plugin is started, and all its views have tables with all that is needed. -/
def Sound (need : List String) (ok : String → J → Prop) (d : Dispatcher J Cfg) : Prop :=
  d.pid ≠ none ∧ ∀ id v, d.views.lookup id = some v → Complete need ok v.table

theorem Sound.set {need : List String} {ok : String → J → Prop} {d : Dispatcher J Cfg} (h : Sound need ok d) {id : Nat} {v : View J Cfg}
    (hv : Complete need ok v.table) : Sound need ok { d with views := setView d.views id v } := by
  refine ⟨h.1, fun id' w hw => ?_⟩
  simp only [lookup_setView] at hw
  split at hw
  · cases hw
    exact hv
  · exact h.2 id' w hw

theorem View.new_sound {decode : Table J → Option Cfg} {need : List String} {ok : String → J → Prop}
    (hd : ∀ t : Table J, Complete need ok t → decode t ≠ none) {plugin : Nat} {info : Info J} (hi : info.views.length = 1 ∧ Complete need ok info.config) :
    ∃ v, View.new decode plugin info = some v ∧ Complete need ok v.table := by
  cases h : View.new decode plugin info with
  | none => exact absurd ⟨hi.1, hd _ hi.2⟩ (View.new_none.1 h)
  | some v =>
    refine ⟨v, rfl, fun k hk => ?_⟩
    rw [(View.new_eq h).2.2.settings k]
    simpa using hi.2 k hk

theorem newViews_sound {decode : Table J → Option Cfg} {need : List String} {ok : String → J → Prop}
    (hd : ∀ t : Table J, Complete need ok t → decode t ≠ none) {plugin : Nat} {infos : List (Info J)} {d : Dispatcher J Cfg} (h : Sound need ok d)
    (hi : ∀ i ∈ infos, i.views.length = 1 ∧ Complete need ok i.config) : ∃ r, newViews decode plugin d infos = some r ∧ Sound need ok r.1 := by
  induction infos generalizing d with
  | nil => exact ⟨_, rfl, h⟩
  | cons info infos ih =>
    obtain ⟨v, hv, hc⟩ := View.new_sound hd (plugin := plugin) (hi info (.head _))
    obtain ⟨⟨d1, c1⟩, h1, h2⟩ := ih (h.set (id := v.id) hc) fun i hi' => hi i (.tail _ hi')
    refine ⟨(d1, .newView v :: c1), ?_, h2⟩
    rw [newViews, hv]
    simp only [h1]

theorem step_sound {decode : Table J → Option Cfg} {need : List String} {ok : String → J → Prop}
    (hd : ∀ t : Table J, Complete need ok t → decode t ≠ none) {d : Dispatcher J Cfg} {m : Msg J} (h : Sound need ok d) (hm : m.Fine need ok)
    (hs : ∀ plugin infos, m ≠ .start plugin infos) : ∃ r, d.step decode m = some r ∧ Sound need ok r.1 := by
  cases m with
  | start plugin infos => exact absurd rfl (hs plugin infos)
  | newBuffer infos =>
    simp only [Dispatcher.step, Dispatcher.newBuffer]
    split
    · exact absurd ‹_› h.1
    · exact newViews_sound hd h hm
  | didSave id path =>
    simp only [Dispatcher.step, Dispatcher.didSave]
    split
    · exact ⟨_, rfl, h⟩
    · rename_i v hv
      exact ⟨_, rfl, h.set (h.2 id v hv)⟩
  | configChanged id changes =>
    simp only [Dispatcher.step, Dispatcher.configChanged]
    split
    · exact ⟨_, rfl, h⟩
    · rename_i v hv
      have hc : Complete need ok (changes.foldl (fun m e => setKey m e.1 e.2) v.table) := by
        intro k hk
        rw [lookup_changes]
        cases hl : List.lookup k changes.reverse with
        | none => simpa using h.2 id v hv k hk
        | some j =>
          refine ⟨j, by simp, ?_⟩
          rw [List.lookup_eq_some_iff] at hl
          obtain ⟨l1, l2, hl, _⟩ := hl
          have : (k, j) ∈ changes := by
            rw [← List.mem_reverse, hl]
            simp
          exact hm _ this hk
      split
      · exact absurd ‹_› (hd _ hc)
      · exact ⟨_, rfl, h.set hc⟩
  | languageChanged id language =>
    simp only [Dispatcher.step, Dispatcher.languageChanged]
    split
    · exact ⟨_, rfl, h⟩
    · rename_i v hv
      exact ⟨_, rfl, h.set (h.2 id v hv)⟩
  | didClose id =>
    simp only [Dispatcher.step, Dispatcher.close]
    split
    · exact ⟨_, rfl, h⟩
    · refine ⟨_, rfl, h.1, fun id' w hw => ?_⟩
      simp only [lookup_filter_ne] at hw
      split at hw
      · cases hw
      · exact h.2 id' w hw
  | update id size rev undoGroup =>
    simp only [Dispatcher.step, Dispatcher.update]
    split
    · exact ⟨_, rfl, h⟩
    · rename_i v hv
      exact ⟨_, rfl, h.set (h.2 id v hv)⟩
  | ask id =>
    simp only [Dispatcher.step]
    split <;> exact ⟨_, rfl, h⟩

theorem run_sound {decode : Table J → Option Cfg} {need : List String} {ok : String → J → Prop}
    (hd : ∀ t : Table J, Complete need ok t → decode t ≠ none) {ms : List (Msg J)} {d : Dispatcher J Cfg} (h : Sound need ok d)
    (hm : ∀ m ∈ ms, m.Fine need ok ∧ ∀ plugin infos, m ≠ .start plugin infos) : d.run decode ms ≠ none := by
  induction ms generalizing d with
  | nil => simp [Dispatcher.run]
  | cons m ms ih =>
    obtain ⟨⟨d1, c1⟩, h1, h2⟩ := step_sound hd h (hm m (.head _)).1 (hm m (.head _)).2
    rw [Dispatcher.run, h1]
    simpa using ih h2 fun m hm' => hm m (.tail _ hm')

end Dispatch

variable {J Cfg : Type}

/-- **C108.**  After any messages that the plugin survives, its views are those that were opened and not closed since.  Each has the path, the language, the
revision, the size, the undo group and every setting that were said last since it was opened, and its decoded settings are those of its table. -/
theorem C108_mirror {decode : Table J → Option Cfg} {msgs : List (Msg J)} {d : Dispatcher J Cfg} {calls : List (List (Call J Cfg))}
    (h : Dispatcher.run decode {} msgs = some (d, calls)) : Faithful decode d.views fun v => history v msgs := by
  have := run_faithful (decode := decode) (hist := fun _ => []) (d := {}) (fun id => by simp [sinceOpen]) h
  simpa using this

/-- **C108.**  All views are of the plugin that the core made it. -/
theorem C108_plugin {decode : Table J → Option Cfg} {msgs : List (Msg J)} {d : Dispatcher J Cfg} {calls : List (List (Call J Cfg))}
    (h : Dispatcher.run decode {} msgs = some (d, calls)) : OfPlugin d :=
  run_plugin (d := {}) ⟨fun id v hv => by simp at hv, fun _ => rfl⟩ h

/-- **C108.**  A message leaves alone every view that it says nothing about. -/
theorem C108_others {decode : Table J → Option Cfg} {d d' : Dispatcher J Cfg} {m : Msg J} {calls : List (Call J Cfg)} {v : Nat}
    (hr : d.step decode m = some (d', calls)) (h : saidOf v m = []) : d'.views.lookup v = d.views.lookup v := by
  have key : ∀ {id : Nat} {e : Said J} {w : View J Cfg}, (if id = v then [e] else []) = [] → (setView d.views id w).lookup v = d.views.lookup v := by
    intro id e w hx
    rw [lookup_setView, if_neg]
    rintro rfl
    simp at hx
  cases m with
  | start plugin infos =>
    simp only [Dispatcher.step, Dispatcher.initialize] at hr
    split at hr
    · cases hr
    · rw [Option.map_eq_some_iff] at hr
      obtain ⟨⟨d1, c1⟩, h1, h2⟩ := hr
      cases h2
      exact newViews_others (d := { d with pid := some plugin }) h1 (by simpa [saidOf] using h)
  | newBuffer infos =>
    simp only [Dispatcher.step, Dispatcher.newBuffer] at hr
    split at hr
    · cases hr
    · exact newViews_others hr (by simpa [saidOf] using h)
  | didSave id path =>
    simp only [Dispatcher.step, Dispatcher.didSave] at hr
    split at hr <;> cases hr
    · rfl
    · exact key h
  | configChanged id changes =>
    simp only [Dispatcher.step, Dispatcher.configChanged] at hr
    split at hr
    · cases hr
      rfl
    · split at hr <;> cases hr
      exact key h
  | languageChanged id language =>
    simp only [Dispatcher.step, Dispatcher.languageChanged] at hr
    split at hr <;> cases hr
    · rfl
    · exact key h
  | didClose id =>
    simp only [Dispatcher.step, Dispatcher.close] at hr
    split at hr <;> cases hr
    · rfl
    · simp only [lookup_filter_ne]
      rw [if_neg]
      rintro rfl
      simp [saidOf] at h
  | update id size rev undoGroup =>
    simp only [Dispatcher.step, Dispatcher.update] at hr
    split at hr <;> cases hr
    · rfl
    · exact key h
  | ask id =>
    simp only [Dispatcher.step] at hr
    split at hr <;> cases hr <;> rfl

/-- **C108.**  What the plugin hears at each message, and that an update is answered with an error exactly for a view that is not open. -/
theorem C108_heard {decode : Table J → Option Cfg} {d d' : Dispatcher J Cfg} {m : Msg J} {calls : List (Call J Cfg)}
    (hr : d.step decode m = some (d', calls)) : Heard decode d.pid d.views d'.views m calls := by
  cases m with
  | start plugin infos =>
    simp only [Dispatcher.step, Dispatcher.initialize] at hr
    split at hr
    · cases hr
    · rw [Option.map_eq_some_iff] at hr
      obtain ⟨⟨d1, c1⟩, h1, h2⟩ := hr
      cases h2
      obtain ⟨_, vs, h3, h4, h5⟩ := newViews_heard (d := { d with pid := some plugin }) h1
      exact ⟨vs, by rw [← h3], h4, h5⟩
  | newBuffer infos =>
    simp only [Dispatcher.step, Dispatcher.newBuffer] at hr
    split at hr
    · cases hr
    · rename_i plugin hn
      obtain ⟨_, vs, h3, h4, h5⟩ := newViews_heard hr
      exact ⟨vs, h3, h4, fun p hp => ⟨(h5 p hp).1, by rw [hn, (h5 p hp).2.1], (h5 p hp).2.2⟩⟩
  | didSave id path =>
    simp only [Dispatcher.step, Dispatcher.didSave] at hr
    split at hr <;> cases hr
    · exact .inl ⟨‹_›, rfl⟩
    · exact .inr ⟨_, _, ‹_›, by simp [lookup_setView], rfl⟩
  | configChanged id changes =>
    simp only [Dispatcher.step, Dispatcher.configChanged] at hr
    split at hr
    · cases hr
      exact .inl ⟨‹_›, rfl⟩
    · split at hr <;> cases hr
      exact .inr ⟨_, ‹_›, rfl⟩
  | languageChanged id language =>
    simp only [Dispatcher.step, Dispatcher.languageChanged] at hr
    split at hr <;> cases hr
    · exact .inl ⟨‹_›, rfl⟩
    · exact .inr ⟨_, _, ‹_›, by simp [lookup_setView], rfl⟩
  | didClose id =>
    simp only [Dispatcher.step, Dispatcher.close] at hr
    split at hr <;> cases hr
    · exact .inl ⟨‹_›, rfl⟩
    · exact .inr ⟨_, ‹_›, rfl⟩
  | update id size rev undoGroup =>
    simp only [Dispatcher.step, Dispatcher.update] at hr
    split at hr <;> cases hr
    · exact .inl ⟨‹_›, rfl⟩
    · refine .inr ⟨_, ?_, by simp [lookup_setView], rfl⟩
      simp [*]
  | ask id =>
    simp only [Dispatcher.step] at hr
    split at hr <;> cases hr
    · exact .inl ⟨‹_›, rfl⟩
    · exact .inr ⟨_, ‹_›, rfl⟩

/-- **C108, in part.**  Exactly when the library panics, if decoding depends on nothing but the values of the keys.  Missing: that the core never says such a
thing. -/
theorem C108_panics_partial {decode : Table J → Option Cfg} (hd : ∀ s t : Table J, (∀ k, s.lookup k = t.lookup k) → decode s = decode t)
    (d : Dispatcher J Cfg) (m : Msg J) : d.step decode m = none ↔ Panics decode d m := by
  cases m with
  | start plugin infos =>
    simp only [Dispatcher.step, Dispatcher.initialize, Panics]
    split
    · simp [*]
    · rename_i hn
      rw [Option.map_eq_none_iff]
      have := newViews_none (decode := decode) (plugin := plugin) (infos := infos) (d := { d with pid := some plugin })
      simp only [Dispatcher.newBuffer]
      rw [this]
      simp [hn]
  | newBuffer infos =>
    simp only [Dispatcher.step, Dispatcher.newBuffer, Panics]
    split
    · simp [*]
    · rename_i hn
      rw [newViews_none]
      simp [hn]
  | configChanged id changes =>
    simp only [Dispatcher.step, Dispatcher.configChanged, Panics]
    split
    · simp [*]
    · rename_i v hv
      split
      · rename_i hc
        simp only [true_iff]
        exact ⟨v, _, hv, lookup_changes changes v.table, hc⟩
      · rename_i c hc
        simp only [reduceCtorEq, false_iff]
        rintro ⟨w, t, hw, ht, hn⟩
        rw [hv] at hw
        cases hw
        rw [hd t _ fun k => (ht k).trans (lookup_changes changes v.table k).symm, hc] at hn
        cases hn
  | didSave id path =>
    simp only [Dispatcher.step, Dispatcher.didSave, Panics]
    split <;> simp
  | languageChanged id language =>
    simp only [Dispatcher.step, Dispatcher.languageChanged, Panics]
    split <;> simp
  | didClose id =>
    simp only [Dispatcher.step, Dispatcher.close, Panics]
    split <;> simp
  | update id size rev undoGroup =>
    simp only [Dispatcher.step, Dispatcher.update, Panics]
    split <;> simp
  | ask id =>
    simp only [Dispatcher.step, Panics]
    split <;> simp

/-- **C108, in part.**  If the core first starts the plugin, and does so once, if each buffer has one view and all the settings that are needed, and no change
gives one of these a value that will not do, then no list of messages makes the library panic.  Missing: that the core does all this. -/
theorem C108_safe_partial {decode : Table J → Option Cfg} {need : List String} {ok : String → J → Prop}
    (hd : ∀ t : Table J, Complete need ok t → decode t ≠ none) {plugin : Nat} {infos : List (Info J)} {ms : List (Msg J)}
    (hi : (Msg.start plugin infos).Fine need ok) (hm : ∀ m ∈ ms, m.Fine need ok ∧ ∀ plugin infos, m ≠ .start plugin infos) :
    Dispatcher.run decode {} (.start plugin infos :: ms) ≠ none := by
  obtain ⟨⟨d1, c1⟩, h1, h2⟩ := newViews_sound hd (plugin := plugin) (infos := infos) (d := { views := [], pid := some plugin })
    ⟨by simp, fun id v hv => by simp at hv⟩ hi
  simp only [Dispatcher.run, Dispatcher.step, Dispatcher.initialize, Dispatcher.newBuffer, h1, Option.map_some, ne_eq, Option.map_eq_none_iff]
  exact run_sound hd h2 hm

/-- **C108.**  An edit of a plugin is for the revision that the core last sent, and, unless a new undo group is asked for, of the group it was sent with. -/
theorem C108_edit {decode : Table J → Option Cfg} {msgs : List (Msg J)} {d : Dispatcher J Cfg} {calls : List (List (Call J Cfg))} {id : Nat}
    {v : View J Cfg} (h : Dispatcher.run decode {} msgs = some (d, calls)) (hv : d.views.lookup id = some v) (fresh : Bool) :
    ∃ info since, sinceOpen (history id msgs) = some (info, since) ∧
      v.edit fresh = match since.findSome? Said.update? with
        | none => (info.rev, none)
        | some (_, rev, undoGroup) => (rev, if fresh then none else undoGroup) := by
  have h' := C108_mirror h id
  simp only at h'
  split at h'
  · rw [hv] at h'
    cases h'
  · rename_i info since hs
    obtain ⟨w, hw, hm⟩ := h'
    rw [hv] at hw
    cases hw
    refine ⟨info, since, hs, ?_⟩
    have hu := hm.update
    cases hf : since.findSome? Said.update? with
    | none =>
      rw [hf] at hu
      simp only [Option.getD_none, Prod.mk.injEq] at hu
      simp [View.edit, hu]
    | some u =>
      rw [hf] at hu
      simp only [Option.getD_some] at hu
      subst hu
      rfl

/-- Settings for examples: a tab size that must be there and not be 0. -/
def DispatchExample.decode (t : Table Nat) : Option Nat :=
  match t.lookup "tab_size" with
  | some 0 => none
  | o => o

/-- A buffer for examples. -/
def DispatchExample.info (id rev : Nat) : Info Nat := ⟨[id], rev, 10, none, "text", [("tab_size", 4), ("wrap", 0)]⟩

open DispatchExample

/-- The examples' settings decode if they are complete. -/
theorem DispatchExample.complete (t : Table Nat) (h : Complete ["tab_size"] (fun _ j => j ≠ 0) t) : decode t ≠ none := by
  obtain ⟨j, hj, h0⟩ := h "tab_size" (by simp)
  rw [decode, hj]
  split
  · rename_i h
    cases h
    exact absurd rfl h0
  · simp

/-- The examples' settings depend only on the values of the keys. -/
theorem DispatchExample.lookups (s t : Table Nat) (h : ∀ k, s.lookup k = t.lookup k) : decode s = decode t := by
  rw [decode, decode, h]

/-- Two views, of which one is saved, changed and updated while the other is closed and opened again. -/
def DispatchExample.messages : List (Msg Nat) :=
  [.start 7 [info 1 3, info 2 3], .didSave 1 "a", .didClose 2, .update 1 12 4 (some 5), .update 2 8 9 none, .configChanged 1 [("tab_size", 2)],
    .newBuffer [info 2 6], .languageChanged 2 "rust", .didSave 1 "b"]

example : (Dispatcher.run decode {} messages).map (fun r => (r.1.views.lookup 1).map fun v => (v.path, v.rev, v.config, v.table.lookup "wrap"))
    = some (some (some "b", 4, 2, some 0)) := by decide +kernel

example : (Dispatcher.run decode {} messages).map (fun r => (r.1.views.lookup 2).map fun v => (v.path, v.rev, v.language, v.config))
    = some (some (none, 6, "rust", 4)) := by decide +kernel

/-- The example meets the hypotheses of `C108_safe_partial`. -/
example : Dispatcher.run decode {} messages ≠ none := by
  refine C108_safe_partial complete ?_ ?_
  · intro i hi
    simp only [List.mem_cons, List.not_mem_nil, or_false] at hi
    rcases hi with rfl | rfl <;> exact ⟨rfl, fun k hk => by simp at hk; subst hk; exact ⟨4, by decide +kernel, by decide⟩⟩
  · intro m hm
    simp only [List.mem_cons, List.not_mem_nil, or_false] at hm
    rcases hm with rfl | rfl | rfl | rfl | rfl | rfl | rfl | rfl <;> refine ⟨?_, by simp⟩ <;> simp only [Msg.Fine]
    · simp
    · intro i hi
      simp only [List.mem_cons, List.not_mem_nil, or_false] at hi
      subst hi
      exact ⟨rfl, fun k hk => by simp at hk; subst hk; exact ⟨4, by decide +kernel, by decide⟩⟩

/-- The example meets the hypothesis of `C108_panics_partial`: a buffer with two views makes the library panic. -/
example : Dispatcher.step decode { pid := some 7 } (.newBuffer [{ info 1 3 with views := [1, 2] }]) = none :=
  (C108_panics_partial lookups _ _).2 (.inr ⟨_, .head _, fun h => absurd h.1 (by decide)⟩)

/-- **C108, refuted.**  A plugin that is started a second time panics. -/
theorem C108_twice_refuted : Dispatcher.run decode {} [.start 7 [info 1 3], .start 7 [info 2 3]] = none := by decide +kernel

/-- **C108, refuted.**  A buffer before the start makes it panic. -/
theorem C108_early_refuted : Dispatcher.run decode {} [.newBuffer [info 1 3]] = none := by decide +kernel

/-- **C108, refuted.**  A change of settings that cannot be decoded makes it panic, and with it all other views are gone. -/
theorem C108_settings_refuted : Dispatcher.run decode {} [.start 7 [info 1 3, info 2 3], .configChanged 1 [("tab_size", 0)]] = none := by decide +kernel

/-- **C108, refuted.**  A plugin that asks for its settings when it is told that they changed gets the old ones. -/
theorem C108_old_refuted : (Dispatcher.run decode {} [.start 7 [info 1 3], .configChanged 1 [("tab_size", 2)]]).map (fun r =>
      (r.2.map fun calls => calls.map fun | .configChanged v _ => some v.config | _ => none, (r.1.views.lookup 1).map (·.config)))
    = some ([[none, none], [some 4]], some 2) := by decide +kernel

end Xi
