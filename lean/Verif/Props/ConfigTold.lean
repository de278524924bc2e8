import Verif.Props.Config
import Verif.Config.Core

/-!
# C76: what a view is told about its settings
-/

namespace Xi

open Config

set_option linter.unusedSectionVars false

variable {V : Type} [DecidableEq V]

/-- What a view knows of a setting from the messages: the value in the last message with this key. -/
def Config.known (sent : List (Nat × Table V)) (view : Nat) (k : String) : Option V :=
  sent.reverse.findSome? fun m => if m.1 = view then m.2.lookup k else none

theorem known_append (a b : List (Nat × Table V)) (view : Nat) (k : String) : known (a ++ b) view k = (known b view k).or (known a view k) := by
  unfold known
  rw [List.reverse_append, List.findSome?_append]

theorem known_one (v : Nat) (t : Table V) (view : Nat) (k : String) : known [(v, t)] view k = if v = view then t.lookup k else none := by
  simp only [known, List.reverse_cons, List.reverse_nil, List.nil_append, List.findSome?_cons, List.findSome?_nil]
  by_cases h : v = view
  · simp only [if_pos h]; cases List.lookup k t <;> rfl
  · simp only [if_neg h]

theorem known_send (c : Core V) (v : Nat) (t : Table V) (view : Nat) (k : String) :
    known (c.send v t).sent view k = if v = view then (t.lookup k).or (known c.sent view k) else known c.sent view k := by
  unfold Core.send
  rw [known_append, known_one]
  split <;> simp

/-- The operations on the core. -/
inductive Config.CoreOp (V : Type) where
  | newView (path : Option String)
  | idle (found : Nat → Option (Table V))
  | modify (dom : External) (changes : Table V)
  | file (dom : Domain) (t : Table V)
  | language (view : Nat) (lang : String)
  | save (view : Nat) (path : String)
  | close (view : Nat)

/-- An operation on the core. -/
def Config.CoreOp.run (σ : Schema V) (on : V) (c : Core V) : CoreOp V → Option (Core V)
  | .newView path => c.newView σ path
  | .idle found => c.idle σ on found
  | .modify dom changes => c.modify σ dom changes
  | .file dom t => c.setConfig σ dom t
  | .language view lang => c.setLanguage σ view lang
  | .save view path => c.save σ view path
  | .close view => c.closeView view

/-- The condition under which views are told the truth, and nothing panics: a view that waits for its setup is left alone, and while a view
waits no settings are changed. -/
def Config.CoreOp.Patient (σ : Schema V) (c : Core V) : CoreOp V → Prop
  | .newView _ => True
  | .idle _ => True
  | .modify _ _ => c.pending = []
  | .file _ t => c.pending = [] ∧ Distinct t ∧ NoNull σ (t.lookup ·)
  | .language view _ => view ∉ c.pending.map (·.1)
  | .save view _ => view ∉ c.pending.map (·.1)
  | .close view => view ∉ c.pending.map (·.1)

/-- The views with their buffers. -/
structure Config.Core.Links (c : Core V) (w : World V) : Prop where
  distinct : Distinct c.views
  inj : ∀ v v' b, c.views.lookup v = some b → c.views.lookup v' = some b → v = v'
  tracked : ∀ v b, c.views.lookup v = some b → (w.tags b).isSome = true
  seen : ∀ b, (w.tags b).isSome = true → ∃ v, c.views.lookup v = some b
  fresh : ∀ v b, c.views.lookup v = some b → v < c.next ∧ b < c.next
  waiting : Distinct c.pending
  there : ∀ v t, c.pending.lookup v = some t → ∃ b, c.views.lookup v = some b

/-- A view has been told the values of its settings. -/
def Config.Core.Told (c : Core V) (w : World V) (v b : Nat) : Prop := ∀ k x, w.value b k = some x → known c.sent v k = some x

/-- All views have been told, or will be. -/
structure Config.Core.Good (σ : Schema V) (c : Core V) (w : World V) : Prop where
  refines : Refines c.manager w
  valid : w.Valid σ
  links : c.Links w
  told : ∀ v b, c.views.lookup v = some b → v ∉ c.pending.map (·.1) → c.Told w v b
  will : ∀ v b t, c.views.lookup v = some b → c.pending.lookup v = some t → ∀ k x, w.value b k = some x → t.lookup k = some x

theorem Config.Core.Good.context {c : Core V} {w : World V} (hr : Refines c.manager w) (hl : c.Links w) {v b : Nat} (hv : c.views.lookup v = some b) : c.context v = some (some b) := by
  unfold Core.context
  rw [hv]
  simp only
  rw [if_pos]
  rw [← hr.tracked]
  exact hl.tracked v b hv

theorem viewOf_eq {c : Core V} (hd : Distinct c.views) (hi : ∀ v v' b, c.views.lookup v = some b → c.views.lookup v' = some b → v = v') {v b : Nat}
    (hv : c.views.lookup v = some b) : c.viewOf b = some v := by
  unfold Core.viewOf
  cases hf : c.views.find? (fun e => e.2 == b) with
  | none =>
    rw [List.find?_eq_none] at hf
    exact absurd (by simp) (hf (v, b) ((mem_iff_lookup hd).2 hv))
  | some e =>
    have h1 := List.mem_of_find?_eq_some hf
    have h2 := List.find?_some hf
    simp only [beq_iff_eq] at h2
    have h3 := (mem_iff_lookup hd).1 (show (e.1, e.2) ∈ c.views from h1)
    rw [h2] at h3
    rw [Option.map_some, hi v e.1 b hv h3]

/-- Telling changes sends to the view of every buffer its changes. -/
theorem tell_spec {w : World V} : ∀ (out : List (Nat × Table V)) {c : Core V}, Refines c.manager w → c.Links w → Distinct out → (∀ b ∈ out.map (·.1), (w.tags b).isSome = true) →
    ∃ l, Core.tell out c = some { c with sent := c.sent ++ l } ∧ ∀ v b, c.views.lookup v = some b → ∀ k, known l v k = (out.lookup b).bind (·.lookup k)
  | [], c, _, _, _, _ => ⟨[], by simp [Core.tell], fun v b _ k => rfl⟩
  | (b, t) :: out, c, hr, hl, hd, ht => by
    obtain ⟨v, hv⟩ := hl.seen b (ht b (by simp))
    simp only [Distinct, List.map_cons, List.nodup_cons] at hd
    have hl' : (c.send v t).Links w := ⟨hl.distinct, hl.inj, hl.tracked, hl.seen, hl.fresh, hl.waiting, hl.there⟩
    obtain ⟨l, h1, h2⟩ := tell_spec out (c := c.send v t) hr hl' hd.2 (fun b hb => ht b (List.mem_cons_of_mem _ hb))
    refine ⟨(v, t) :: l, ?_, ?_⟩
    · unfold Core.tell
      rw [viewOf_eq hl.distinct hl.inj hv]
      have hctx := Core.Good.context hr hl hv
      simp only [Option.bind_eq_bind, Option.bind_some, hctx, h1]
      simp [Core.send]
    · intro v' b' hv' k
      rw [show (v, t) :: l = [(v, t)] ++ l from rfl, known_append, known_one, h2 v' b' hv', lookup_cons_ite]
      by_cases hb : b' = b
      · subst hb
        have hn : out.lookup b' = none := by
          rw [← Option.not_isSome_iff_eq_none, ← keys_iff]; exact hd.1
        rw [if_pos rfl, if_pos (hl.inj v v' b' hv hv'), hn]
        rfl
      · rw [if_neg hb, if_neg]
        · simp
        · rintro rfl
          rw [hv] at hv'
          exact hb (Option.some.inj hv').symm

theorem lookup_keys_none {A : Type} {m : Map Nat A} {v : Nat} : v ∉ m.map (·.1) ↔ m.lookup v = none := by
  rw [keys_iff, Option.not_isSome_iff_eq_none]

/-- What is reported is enough to know the new values. -/
theorem reports_enough {f g : Settings V} {r : Option (Table V)} (h : Reports f g r) {kn : Settings V} (hk : ∀ k x, f k = some x → kn k = some x) (k : String) (x : V) (hx : g k = some x) :
    ((r.bind (·.lookup k)).or (kn k)) = some x := by
  have h1 := h.1 k
  have h2 : (r.getD []).lookup k = r.bind (·.lookup k) := by cases r <;> rfl
  rw [h2] at h1
  rw [h1]
  by_cases hfg : f k = g k
  · rw [if_pos hfg, Option.none_or]
    exact hk k x (hfg.trans hx)
  · rw [if_neg hfg, hx]
    rfl

theorem Config.Core.Links.of_tags {c : Core V} {w w' : World V} (h : c.Links w) (ht : w'.tags = w.tags) : c.Links w' :=
  ⟨h.distinct, h.inj, by rw [ht]; exact h.tracked, by rw [ht]; exact h.seen, h.fresh, h.waiting, h.there⟩

/-- Settings of a domain are replaced while no view waits. -/
theorem setConfig_good {σ : Schema V} {c : Core V} {w : World V} (h : c.Good σ w) (hp : c.pending = []) (dom : Domain) {t : Table V} (ht : Distinct t) (hn : NoNull σ (t.lookup ·)) :
    ∃ c' w', c.setConfig σ dom t = some c' ∧ c'.Good σ w' := by
  obtain ⟨⟨⟨m, r⟩, hx⟩, hval⟩ := C75_set_no_panic (dom := dom) ht h.refines h.valid hn
  unfold Core.setConfig
  rw [hx]
  simp only [Option.bind_eq_bind, Option.bind_some]
  rcases C75_set_partial ht h.refines hx with ⟨-, rfl, rfl⟩ | ⟨ha, out, rfl, hr, hd, hrep⟩
  · exact ⟨c, w, rfl, h⟩
  · have hl : Core.Links { c with manager := m } (w.setUser dom (t.lookup ·)) := ⟨h.links.distinct, h.links.inj, h.links.tracked, h.links.seen, h.links.fresh, h.links.waiting, h.links.there⟩
    obtain ⟨l, h1, h2⟩ := tell_spec out (c := { c with manager := m }) hr hl hd (by
      intro b hb
      rw [keys_iff] at hb
      have := hrep b
      split at this
      · rename_i hw; exact hw
      · rw [this] at hb; cases hb)
    refine ⟨_, _, h1, hr, hval ha, ⟨hl.distinct, hl.inj, hl.tracked, hl.seen, hl.fresh, hl.waiting, hl.there⟩, ?_, ?_⟩
    · intro v b hv _ k x hk
      show known (c.sent ++ l) v k = some x
      rw [known_append, h2 v b hv]
      have := hrep b
      rw [if_pos (h.links.tracked v b hv)] at this
      exact reports_enough this (h.told v b hv (by rw [hp]; simp)) k x hk
    · intro v b t hv hpv
      have hpv : c.pending.lookup v = some t := hpv
      rw [hp] at hpv
      cases hpv

/-- The settings of one buffer change, and its view is told. -/
theorem oneBuffer_good {σ : Schema V} {c : Core V} {w : World V} (h : c.Good σ w) {v b : Nat} (hv : c.views.lookup v = some b) (hp : v ∉ c.pending.map (·.1)) {m : Manager V}
    {tag : Option (String × Option String)} (htag : tag.isSome = true) (hr : Refines m (w.setTag b tag)) {r : Option (Table V)} (hrep : Reports (w.value b) ((w.setTag b tag).value b) r) :
    ∃ c', (match r with | some t => some (Core.send { c with manager := m } v t) | none => some { c with manager := m }) = some c' ∧
      c'.Good σ (w.setTag b tag) := by
  have htr : ∀ i, ((w.setTag b tag).tags i).isSome = (w.tags i).isSome := by
    intro i
    simp only [World.setTag]
    split
    · rename_i e; rw [e, htag, h.links.tracked v b hv]
    · rfl
  have key : ∀ s, (∀ v' b', c.views.lookup v' = some b' → v' ∉ c.pending.map (·.1) → ∀ k x, (w.setTag b tag).value b' k = some x → known s v' k = some x) →
      Core.Good σ { c with manager := m, sent := s } (w.setTag b tag) := by
    intro s hs
    refine ⟨hr, Valid.setTag h.valid b tag, ⟨h.links.distinct, h.links.inj, fun v b hv => by rw [htr]; exact h.links.tracked v b hv, fun b hb => h.links.seen b (by rw [← htr]; exact hb),
      h.links.fresh, h.links.waiting, h.links.there⟩, hs, ?_⟩
    intro v' b' t hv' ht k x hk
    have hne : b' ≠ b := by
      rintro rfl
      have := h.links.inj v v' b' hv hv'
      subst this
      have ht : c.pending.lookup v = some t := ht
      rw [lookup_keys_none.1 hp] at ht
      cases ht
    rw [value_setTag w b b' tag hne] at hk
    exact h.will v' b' t hv' ht k x hk
  have old : ∀ v' b', c.views.lookup v' = some b' → v' ≠ v → v' ∉ c.pending.map (·.1) → ∀ k x, (w.setTag b tag).value b' k = some x → known c.sent v' k = some x := by
    intro v' b' hv' hne hnp k x hk
    have : b' ≠ b := by rintro rfl; exact hne (h.links.inj v' v b' hv' hv)
    rw [value_setTag w b b' tag this] at hk
    exact h.told v' b' hv' hnp k x hk
  cases r with
  | some t =>
    refine ⟨_, rfl, key _ ?_⟩
    intro v' b' hv' hnp k x hk
    have := known_send c v t v' k
    have hs : known (c.sent ++ [(v, t)]) v' k = if v = v' then (t.lookup k).or (known c.sent v' k) else known c.sent v' k := this
    show known (c.sent ++ [(v, t)]) v' k = some x
    rw [hs]
    by_cases e : v = v'
    · subst e
      rw [hv] at hv'
      cases hv'
      rw [if_pos rfl]
      exact reports_enough hrep (h.told v b hv hp) k x hk
    · rw [if_neg e]
      exact old v' b' hv' (Ne.symm e) hnp k x hk
  | none =>
    refine ⟨_, rfl, key c.sent ?_⟩
    intro v' b' hv' hnp k x hk
    by_cases e : v' = v
    · subst e
      rw [hv] at hv'
      cases hv'
      have := reports_enough hrep (h.told v' b hv hp) k x hk
      simpa using this
    · exact old v' b' hv' e hnp k x hk

/-- Whitespace is looked at. -/
theorem detect_good {σ : Schema V} (hnull : ∀ k ∈ σ.fields, σ.ok k σ.null = false) (on : V) (found : Nat → Option (Table V)) {c : Core V} {w : World V} (hr : Refines c.manager w) (hval : w.Valid σ) (hl : c.Links w) {v b : Nat} (hv : c.views.lookup v = some b) {config : Table V}
    (hc : ∀ k x, w.value b k = some x → config.lookup k = some x) :
    ∃ m w' md, c.detect σ on found v config = some ({ c with manager := m }, md) ∧ Refines m w' ∧ w'.Valid σ ∧ w'.tags = w.tags ∧ (∀ i, i ≠ b → w'.value i = w.value i) ∧
      ∀ k x, w'.value b k = some x → (md.getD config).lookup k = some x := by
  have same : ∀ {m : Manager V}, Refines m w → ∃ m' w' md, some (({ c with manager := m } : Core V), (none : Option (Table V))) = some ({ c with manager := m' }, md) ∧ Refines m' w' ∧ w'.Valid σ ∧ w'.tags = w.tags ∧ (∀ i, i ≠ b → w'.value i = w.value i) ∧
      ∀ k x, w'.value b k = some x → (md.getD config).lookup k = some x :=
    fun hm => ⟨_, w, none, rfl, hm, hval, rfl, fun _ _ => rfl, hc⟩
  unfold Core.detect
  rw [hv]
  simp only
  cases hf : found b with
  | none => exact same hr
  | some changes =>
    have hb : (c.manager.buffers.lookup b).isSome = true := by rw [← hr.tracked]; exact hl.tracked v b hv
    obtain ⟨stored, hst⟩ := Option.isSome_iff_exists.1 hb
    simp only [hst, Option.bind_eq_bind, Option.bind_some]
    by_cases hon : stored.toTable.lookup "autodetect_whitespace" ≠ some on
    · rw [if_pos hon]; exact same hr
    · rw [if_neg hon]
      obtain ⟨⟨⟨m, r⟩, hx⟩, hval'⟩ := C75_modify_no_panic (dom := .sysOverride b) (changes := changes) hnull hr hval
      rw [hx]
      simp only [Option.bind_some]
      rcases C75_modify_partial hr hx with ⟨-, h1, rfl⟩ | ⟨ha, out, rfl, hr', hd, hrep⟩
      · exact same h1
      · have hother : ∀ i, i ≠ b → (w.setUser (.sysOverride b) (World.modified σ.null (w.user (.sysOverride b)) (changes.lookup ·))).value i = w.value i := by
          intro i hi
          funext k
          rw [value_eq, value_eq]
          simp only [World.setUser, World.language]
          simp [hi]
          rfl
        have hsingle : out = [] ∨ ∃ t, out = [(b, t)] := by
          have hdd : Distinct (c.manager.tableForUpdate σ (.sysOverride b) changes).2 := by
            show Distinct (changes.foldr (updateEntry σ.null) (((c.manager.configs.lookup (.sysOverride b)).getD (Pair.withBase none)).user.getD []))
            refine distinct_update _ ?_ _
            cases hp : c.manager.configs.lookup (.sysOverride b) with
            | none => exact List.nodup_nil
            | some p => exact hr.base.tables.distinct _ p hp
          exact C75_single hdd (tableForUpdate_refines hr _ _) hx
        have hb := hrep b
        rw [if_pos (hl.tracked v b hv)] at hb
        rcases hsingle with rfl | ⟨t, rfl⟩
        · refine ⟨m, _, none, rfl, hr', hval' ha, rfl, hother, ?_⟩
          intro k x hk
          have := reports_enough hb hc k x hk
          simpa using this
        · refine ⟨m, _, some (insertAll config t), rfl, hr', hval' ha, rfl, hother, ?_⟩
          intro k x hk
          rw [lookup_cons_ite, if_pos rfl] at hb
          have := reports_enough hb hc k x hk
          rw [Option.getD_some, lookup_insertAll]
          exact this

theorem finalize_good {σ : Schema V} (hnull : ∀ k ∈ σ.fields, σ.ok k σ.null = false) (on : V) (found : Nat → Option (Table V)) : ∀ (l : List (Nat × Table V)) {c : Core V} {w : World V},
    c.pending = [] → Distinct l → Core.Good σ { c with pending := l } w → ∃ c' w', Core.finalize σ on found l c = some c' ∧ c'.Good σ w' ∧ c'.pending = []
  | [], c, w, hp, _, h => ⟨c, w, rfl, by
      obtain ⟨m, vs, p, n, s⟩ := c
      cases hp
      exact h, hp⟩
  | (v, config) :: l, c, w, hp, hd, h => by
    simp only [Distinct, List.map_cons, List.nodup_cons] at hd
    obtain ⟨b, hv⟩ := h.links.there v config (by show List.lookup v ((v, config) :: l) = _; rw [lookup_cons_ite, if_pos rfl])
    have hv : c.views.lookup v = some b := hv
    have hl : c.Links w := ⟨h.links.distinct, h.links.inj, h.links.tracked, h.links.seen, h.links.fresh, by rw [hp]; exact List.nodup_nil, by rw [hp]; intro v t ht; cases ht⟩
    obtain ⟨m, w', md, h1, h2, h3, h4, h5, h6⟩ := detect_good (c := c) hnull on found h.refines h.valid hl hv
      (fun k x hk => h.will v b config hv (by show List.lookup v ((v, config) :: l) = _; rw [lookup_cons_ite, if_pos rfl]) k x hk)
    have hl' : Core.Links { c with manager := m } w' := by
      have := hl.of_tags h4
      exact ⟨this.distinct, this.inj, this.tracked, this.seen, this.fresh, this.waiting, this.there⟩
    have hctx := Core.Good.context (c := { c with manager := m }) h2 hl' hv
    have hg : Core.Good σ { Core.send { c with manager := m } v (md.getD config) with pending := l } w' := by
      refine ⟨h2, h3, ⟨hl'.distinct, hl'.inj, hl'.tracked, hl'.seen, hl'.fresh, hd.2, ?_⟩, ?_, ?_⟩
      · intro v' t ht
        have ht : l.lookup v' = some t := ht
        refine h.links.there v' t ?_
        show List.lookup v' ((v, config) :: l) = some t
        rw [lookup_cons_ite, if_neg]
        · exact ht
        · rintro rfl
          rw [lookup_keys_none.1 hd.1] at ht
          cases ht
      · intro v' b' hv' hnp k x hk
        have hv' : c.views.lookup v' = some b' := hv'
        show known (c.sent ++ [(v, md.getD config)]) v' k = some x
        have := known_send c v (md.getD config) v' k
        have hs : known (c.sent ++ [(v, md.getD config)]) v' k = if v = v' then ((md.getD config).lookup k).or (known c.sent v' k) else known c.sent v' k := this
        rw [hs]
        by_cases e : v = v'
        · subst e
          rw [hv] at hv'
          cases hv'
          rw [if_pos rfl, h6 k x hk]
          rfl
        · rw [if_neg e]
          have hne : b' ≠ b := by rintro rfl; exact e (hl.inj v v' b' hv hv')
          rw [h5 b' hne] at hk
          refine h.told v' b' hv' ?_ k x hk
          show v' ∉ List.map (·.1) ((v, config) :: l)
          simp only [List.map_cons, List.mem_cons, not_or]
          exact ⟨Ne.symm e, hnp⟩
      · intro v' b' t hv' ht k x hk
        have hv' : c.views.lookup v' = some b' := hv'
        have ht : l.lookup v' = some t := ht
        have e : v' ≠ v := by
          rintro rfl
          rw [lookup_keys_none.1 hd.1] at ht
          cases ht
        have hne : b' ≠ b := by rintro rfl; exact e (hl.inj v' v b' hv' hv)
        rw [h5 b' hne] at hk
        refine h.will v' b' t hv' ?_ k x hk
        show List.lookup v' ((v, config) :: l) = some t
        rw [lookup_cons_ite, if_neg e]
        exact ht
    obtain ⟨c', w'', g1, g2, g3⟩ := finalize_good hnull on found l (c := Core.send { c with manager := m } v (md.getD config)) hp hd.2 hg
    refine ⟨c', w'', ?_, g2, g3⟩
    unfold Core.finalize
    rw [h1]
    simp only [Option.bind_eq_bind, Option.bind_some, hctx]
    exact g1

theorem distinct_append_one {A : Type} {m : Map Nat A} (h : Distinct m) {k : Nat} (hk : k ∉ m.map (·.1)) (x : A) : Distinct (m ++ [(k, x)]) := by
  unfold Distinct
  rw [List.map_append, List.nodup_append]
  refine ⟨h, by simp, ?_⟩
  intro a ha b hb
  simp only [List.map_cons, List.map_nil, List.mem_singleton] at hb
  subst hb
  rintro rfl
  exact hk ha

theorem lookup_append {A : Type} (m : Map Nat A) (k : Nat) (x : A) (j : Nat) : (m ++ [(k, x)]).lookup j = (m.lookup j).or (if j = k then some x else none) := by
  induction m with
  | nil => rw [List.nil_append, lookup_cons_ite]; rfl
  | cons e m ih =>
    obtain ⟨a, y⟩ := e
    rw [List.cons_append, lookup_cons_ite, lookup_cons_ite, ih]
    split <;> rfl

theorem newView_good {σ : Schema V} {c : Core V} {w : World V} (h : c.Good σ w) (path : Option String) : ∃ c' w', c.newView σ path = some c' ∧ c'.Good σ w' := by
  have hfresh : w.tags (c.next + 1) = none := by
    rw [← Option.not_isSome_iff_eq_none]
    intro hc
    obtain ⟨v, hv⟩ := h.links.seen _ hc
    have := (h.links.fresh v _ hv).2
    omega
  have hnv : c.views.lookup c.next = none := by
    rw [← Option.not_isSome_iff_eq_none]
    intro hc
    obtain ⟨b, hb⟩ := Option.isSome_iff_exists.1 hc
    have := (h.links.fresh _ b hb).1
    omega
  have hnp : c.pending.lookup c.next = none := by
    cases hx : c.pending.lookup c.next with
    | none => rfl
    | some t =>
      obtain ⟨b, hb⟩ := h.links.there _ t hx
      rw [hnv] at hb
      cases hb
  obtain ⟨p1, -, p3⟩ := C75_buffer_no_panic (id := c.next + 1) h.refines h.valid
  obtain ⟨⟨m, t⟩, hx⟩ := p1 hfresh path
  obtain ⟨-, hr, ht⟩ := C75_add h.refines hx
  have htags : ∀ i, ((w.setTag (c.next + 1) (some ((path.bind w.ext).getD "Plain Text", none))).tags i).isSome = (decide (i = c.next + 1) || (w.tags i).isSome) := by
    intro i
    simp only [World.setTag]
    by_cases hi : i = c.next + 1 <;> simp [hi]
  have lv : ∀ v, (set c.views c.next (c.next + 1)).lookup v = if v = c.next then some (c.next + 1) else c.views.lookup v := fun v => lookup_set _ _ _ _
  have hctx : Core.context { c with manager := m, views := set c.views c.next (c.next + 1), next := c.next + 2 } c.next = some (some (c.next + 1)) := by
    unfold Core.context
    simp only [lv, if_true]
    rw [if_pos]
    rw [← hr.tracked, htags]
    simp
  refine ⟨{ c with manager := m, views := set c.views c.next (c.next + 1), next := c.next + 2, pending := c.pending ++ [(c.next, t)] }, _, ?_, hr, p3 _, ?_, ?_, ?_⟩
  · unfold Core.newView
    simp only [hx, Option.bind_eq_bind, Option.bind_some, hctx]
    rfl
  · refine ⟨distinct_set h.links.distinct _ _, ?_, ?_, ?_, ?_, distinct_append_one h.links.waiting (lookup_keys_none.2 hnp) t, ?_⟩
    · intro v v' b hv hv'
      have hv : (set c.views c.next (c.next + 1)).lookup v = some b := hv
      have hv' : (set c.views c.next (c.next + 1)).lookup v' = some b := hv'
      rw [lv] at hv hv'
      split at hv <;> split at hv'
      · rename_i e1 e2; rw [e1, e2]
      · cases hv
        have := (h.links.fresh v' _ hv').2
        omega
      · cases hv'
        have := (h.links.fresh v _ hv).2
        omega
      · exact h.links.inj v v' b hv hv'
    · intro v b hv
      have hv : (set c.views c.next (c.next + 1)).lookup v = some b := hv
      rw [lv] at hv
      rw [htags]
      split at hv
      · cases hv; simp
      · simp [h.links.tracked v b hv]
    · intro b hb
      rw [htags, Bool.or_eq_true, decide_eq_true_iff] at hb
      rcases hb with rfl | hb
      · exact ⟨c.next, by show (set c.views c.next (c.next + 1)).lookup _ = _; rw [lv, if_pos rfl]⟩
      · obtain ⟨v, hv⟩ := h.links.seen b hb
        refine ⟨v, ?_⟩
        show (set c.views c.next (c.next + 1)).lookup _ = _
        rw [lv, if_neg]
        · exact hv
        · rintro rfl; rw [hnv] at hv; cases hv
    · intro v b hv
      have hv : (set c.views c.next (c.next + 1)).lookup v = some b := hv
      show v < c.next + 2 ∧ b < c.next + 2
      rw [lv] at hv
      split at hv
      · cases hv; omega
      · have := h.links.fresh v b hv
        omega
    · intro v t' hv
      have hv : (c.pending ++ [(c.next, t)]).lookup v = some t' := hv
      show ∃ b, (set c.views c.next (c.next + 1)).lookup v = some b
      rw [lookup_append] at hv
      rw [lv]
      split
      · exact ⟨_, rfl⟩
      · rename_i e
        rw [if_neg e, Option.or_none] at hv
        exact h.links.there v t' hv
  · intro v b hv hnpv k x hk
    have hv : (set c.views c.next (c.next + 1)).lookup v = some b := hv
    have hnpv : v ∉ (c.pending ++ [(c.next, t)]).map (·.1) := hnpv
    simp only [List.map_append, List.map_cons, List.map_nil, List.mem_append, List.mem_singleton, not_or] at hnpv
    rw [lv, if_neg hnpv.2] at hv
    have hb : b ≠ c.next + 1 := by have := (h.links.fresh v b hv).2; omega
    rw [value_setTag _ _ _ _ hb] at hk
    exact h.told v b hv hnpv.1 k x hk
  · intro v b t' hv hp k x hk
    have hv : (set c.views c.next (c.next + 1)).lookup v = some b := hv
    have hp : (c.pending ++ [(c.next, t)]).lookup v = some t' := hp
    rw [lookup_append] at hp
    rw [lv] at hv
    split at hv
    · rename_i e
      cases hv
      rw [e, hnp, if_pos rfl] at hp
      cases hp
      rw [ht]
      exact hk
    · rename_i e
      rw [if_neg e, Option.or_none] at hp
      have hb : b ≠ c.next + 1 := by have := (h.links.fresh v b hv).2; omega
      rw [value_setTag _ _ _ _ hb] at hk
      exact h.will v b t' hv hp k x hk

theorem close_good {σ : Schema V} {c : Core V} {w : World V} (h : c.Good σ w) {view : Nat} (hp : view ∉ c.pending.map (·.1)) : ∃ c' w', c.closeView view = some c' ∧ c'.Good σ w' := by
  unfold Core.closeView
  cases hv : c.views.lookup view with
  | none =>
    have : c.context view = some none := by unfold Core.context; rw [hv]
    rw [this]
    exact ⟨c, w, rfl, h⟩
  | some b =>
    rw [Core.Good.context h.refines h.links hv]
    obtain ⟨-, p2, p3⟩ := C75_buffer_no_panic (id := b) h.refines h.valid
    obtain ⟨m, hm⟩ := (p2 (h.links.tracked view b hv)).2.2
    have hr := C75_remove h.refines hm
    have lv : ∀ v, (unset c.views view).lookup v = if v = view then none else c.views.lookup v := fun v => lookup_unset _ _ _
    have back : ∀ v b', (unset c.views view).lookup v = some b' → v ≠ view ∧ c.views.lookup v = some b' ∧ b' ≠ b := by
      intro v b' hvb
      rw [lv] at hvb
      split at hvb
      · cases hvb
      · rename_i e
        exact ⟨e, hvb, by rintro rfl; exact e (h.links.inj v view b' hvb hv)⟩
    refine ⟨{ c with views := unset c.views view, manager := m }, _, ?_, hr, p3 _, ?_, ?_, ?_⟩
    · simp only [Option.bind_eq_bind, Option.bind_some, hm]
      rfl
    · refine ⟨distinct_unset h.links.distinct _, ?_, ?_, ?_, ?_, h.links.waiting, ?_⟩
      · intro v v' b' h1 h2
        exact h.links.inj v v' b' (back v b' h1).2.1 (back v' b' h2).2.1
      · intro v b' h1
        obtain ⟨-, h2, h3⟩ := back v b' h1
        simp only [World.setTag, if_neg h3]
        exact h.links.tracked v b' h2
      · intro b' hb
        simp only [World.setTag] at hb
        split at hb
        · cases hb
        · rename_i e
          obtain ⟨v, hv'⟩ := h.links.seen b' hb
          refine ⟨v, ?_⟩
          show (unset c.views view).lookup v = _
          rw [lv, if_neg]
          · exact hv'
          · rintro rfl; rw [hv] at hv'; exact e (Option.some.inj hv').symm
      · intro v b' h1
        exact h.links.fresh v b' (back v b' h1).2.1
      · intro v t hvt
        obtain ⟨b', hb'⟩ := h.links.there v t hvt
        refine ⟨b', ?_⟩
        show (unset c.views view).lookup v = _
        rw [lv, if_neg]
        · exact hb'
        · rintro rfl
          have hvt : c.pending.lookup v = some t := hvt
          rw [lookup_keys_none.1 hp] at hvt
          cases hvt
    · intro v b' h1 hnp k x hk
      obtain ⟨-, h2, h3⟩ := back v b' h1
      rw [value_setTag _ _ _ _ h3] at hk
      exact h.told v b' h2 hnp k x hk
    · intro v b' t h1 ht k x hk
      obtain ⟨-, h2, h3⟩ := back v b' h1
      rw [value_setTag _ _ _ _ h3] at hk
      exact h.will v b' t h2 ht k x hk

theorem core_step {σ : Schema V} (hnull : ∀ k ∈ σ.fields, σ.ok k σ.null = false) (on : V) {c : Core V} {w : World V} (h : c.Good σ w) (op : CoreOp V) (ho : op.Patient σ c) :
    ∃ c' w', op.run σ on c = some c' ∧ c'.Good σ w' := by
  cases op with
  | newView path => exact newView_good h path
  | idle found =>
    obtain ⟨c', w', h1, h2, -⟩ := finalize_good hnull on found c.pending (c := { c with pending := [] }) rfl h.links.waiting h
    exact ⟨c', w', h1, h2⟩
  | modify dom changes =>
    show ∃ c' w', c.modify σ dom changes = some c' ∧ _
    unfold Core.modify
    cases hd : c.domain dom with
    | none => exact ⟨c, w, rfl, h⟩
    | some d =>
      have hdd : Distinct (c.manager.tableForUpdate σ d changes).2 := by
        show Distinct (changes.foldr (updateEntry σ.null) (((c.manager.configs.lookup d).getD (Pair.withBase none)).user.getD []))
        refine distinct_update _ ?_ _
        cases hp : c.manager.configs.lookup d with
        | none => exact List.nodup_nil
        | some p => exact h.refines.base.tables.distinct _ p hp
      have ht : (fun k => (c.manager.tableForUpdate σ d changes).2.lookup k) = World.modified σ.null (w.user d) (changes.lookup ·) := funext fun k => lookup_tableForUpdate h.refines.base.tables d changes k
      have hn : NoNull σ ((c.manager.tableForUpdate σ d changes).2.lookup ·) := by
        rw [ht]
        exact modified_noNull fun k hk hc => by
          have := h.valid.user k hk d _ hc
          rw [hnull k hk] at this
          cases this
      have hg : Core.Good σ { c with manager := (c.manager.tableForUpdate σ d changes).1 } w :=
        ⟨tableForUpdate_refines (σ := σ) h.refines d changes, h.valid, ⟨h.links.distinct, h.links.inj, h.links.tracked, h.links.seen, h.links.fresh, h.links.waiting, h.links.there⟩, h.told, h.will⟩
      exact setConfig_good hg ho d hdd hn
  | file dom t => exact setConfig_good h ho.1 dom ho.2.1 ho.2.2
  | language view lang =>
    show ∃ c' w', c.setLanguage σ view lang = some c' ∧ _
    unfold Core.setLanguage
    cases hv : c.views.lookup view with
    | none => exact ⟨c, w, rfl, h⟩
    | some b =>
      obtain ⟨-, p2, p3⟩ := C75_buffer_no_panic (id := b) h.refines h.valid
      obtain ⟨⟨m, r⟩, hm⟩ := (p2 (h.links.tracked view b hv)).2.1 lang
      obtain ⟨dt, ch, -, hr, hrep⟩ := C75_language_partial h.refines hm
      obtain ⟨c', h1, h2⟩ := oneBuffer_good h hv ho rfl hr hrep
      refine ⟨c', _, ?_, h2⟩
      have hctx : Core.context { c with manager := m } view = some (some b) := by
        unfold Core.context
        simp only [hv]
        rw [if_pos]
        rw [← hr.tracked]
        simp [World.setTag]
      simp only [hm, Option.bind_eq_bind, Option.bind_some, hctx]
      rw [← h1]
      cases r <;> rfl
  | save view path =>
    show ∃ c' w', c.save σ view path = some c' ∧ _
    unfold Core.save
    cases hv : c.views.lookup view with
    | none => exact ⟨c, w, rfl, h⟩
    | some b =>
      obtain ⟨-, p2, p3⟩ := C75_buffer_no_panic (id := b) h.refines h.valid
      obtain ⟨⟨m, r⟩, hm⟩ := (p2 (h.links.tracked view b hv)).1 path
      obtain ⟨dt, ch, -, hr, hrep⟩ := C75_path_partial h.refines hm
      obtain ⟨c', h1, h2⟩ := oneBuffer_good h hv ho rfl hr hrep
      refine ⟨c', _, ?_, h2⟩
      have hctx : Core.context { c with manager := m } view = some (some b) := by
        unfold Core.context
        simp only [hv]
        rw [if_pos]
        rw [← hr.tracked]
        simp [World.setTag]
      simp only [hm, Option.bind_eq_bind, Option.bind_some, hctx, Core.Good.context h.refines h.links hv]
      rw [← h1]
      cases r <;> rfl
  | close view => exact close_good h ho

/-- All operations are patient when it is their turn. -/
def Config.PatientAll (σ : Schema V) (on : V) : Core V → List (CoreOp V) → Prop
  | _, [] => True
  | c, op :: ops => op.Patient σ c ∧ ∀ c', op.run σ on c = some c' → PatientAll σ on c' ops

theorem core_run {σ : Schema V} (hnull : ∀ k ∈ σ.fields, σ.ok k σ.null = false) (on : V) : ∀ (ops : List (CoreOp V)) {c : Core V} {w : World V}, c.Good σ w → PatientAll σ on c ops →
    ∃ c' w', ops.foldlM (CoreOp.run σ on) c = some c' ∧ c'.Good σ w'
  | [], c, w, h, _ => ⟨c, w, rfl, h⟩
  | op :: ops, c, w, h, hp => by
    obtain ⟨c1, w1, h1, h2⟩ := core_step hnull on h op hp.1
    obtain ⟨c', w', h3, h4⟩ := core_run hnull on ops h2 (hp.2 c1 h1)
    exact ⟨c', w', by rw [List.foldlM_cons, h1]; exact h3, h4⟩

/-- C76, in part: with the real fields and defaults, after any operations that leave views alone which wait for their setup, nothing has
panicked, and every view that does not wait knows the value of every setting that `get_config` would give.  Missing: operations that
come between the request for a new view and the next idle time (`C76_stale_refuted`, `C76_close_refuted`), and settings that are gone. -/
theorem C76_told_partial (ops : List (CoreOp Val)) (hp : PatientAll bufferItems (.bool true) (Core.new builtIn) ops) :
    ∃ c, ops.foldlM (CoreOp.run bufferItems (.bool true)) (Core.new builtIn) = some c ∧
      ∀ v, v ∉ c.pending.map (·.1) → ∀ t, c.getConfig v = some t → ∀ k x, t.lookup k = some x → known c.sent v k = some x := by
  have nothing : ∀ {A : Type} {v : Nat} {x : A}, List.lookup v ([] : List (Nat × A)) = some x → False := fun h => by cases h
  have start : (Core.new builtIn).Good bufferItems (World.new (builtIn.lookup ·)) := by
    refine ⟨C75_new builtIn, C75_defaults_valid, ⟨List.nodup_nil, ?_, ?_, ?_, ?_, List.nodup_nil, ?_⟩, ?_, ?_⟩
    · intro _ _ _ h; exact (nothing h).elim
    · intro _ _ h; exact (nothing h).elim
    · intro _ h; cases h
    · intro _ _ h; exact (nothing h).elim
    · intro _ _ h; exact (nothing h).elim
    · intro _ _ h; exact (nothing h).elim
    · intro _ _ _ h; exact (nothing h).elim
  obtain ⟨c, w, h1, h2⟩ := core_run bufferItems_null (.bool true) ops start hp
  refine ⟨c, h1, ?_⟩
  intro v hv t ht k x hk
  unfold Core.getConfig at ht
  cases hb : c.views.lookup v with
  | none => rw [hb] at ht; cases ht
  | some b =>
    rw [hb, Option.bind_some] at ht
    cases hc : c.manager.buffers.lookup b with
    | none => rw [hc] at ht; cases ht
    | some cfg =>
      rw [hc] at ht
      cases ht
      have := (C75_value h2.refines hc k).1
      rw [this] at hk
      exact h2.told v b hb hv k x hk

/-- What a view knows of a key, and what `get_config` says, after some operations. -/
def Config.toldAfter (ops : List (CoreOp Val)) (view : Nat) (k : String) : Option (Option Val × Option Val) :=
  (ops.foldlM (CoreOp.run bufferItems (.bool true)) (Core.new builtIn)).map fun c => (known c.sent view k, (c.getConfig view).bind (·.lookup k))

/-- A run: a view is made, the whitespace of its text is detected, the client changes settings. -/
def Config.exampleTold : List (CoreOp Val) :=
  [.newView none, .idle fun _ => some [("tab_size", .num 2)], .modify .general [("tab_size", .num 8), ("font_size", .num 12)], .modify (.userOverride 0) [("tab_size", .num 3)], .language 0 "Rust"]

example : (toldAfter exampleTold 0 "tab_size", toldAfter exampleTold 0 "font_size", toldAfter exampleTold 0 "word_wrap") =
    (some (some (.num 3), some (.num 3)), some (some (.num 12), some (.num 12)), some (some (.bool false), some (.bool false))) := by decide +kernel

theorem pending_after {ops : List (CoreOp Val)} {c : Core Val} (h : ops.foldlM (CoreOp.run bufferItems (.bool true)) (Core.new builtIn) = some c)
    (hn : (ops.foldlM (CoreOp.run bufferItems (.bool true)) (Core.new builtIn)).map (·.pending) = some []) : c.pending = [] := by
  rw [h] at hn
  exact Option.some.inj hn

/-- The run of the example is patient: nothing waits after the idle time. -/
example : PatientAll bufferItems (.bool true) (Core.new builtIn) exampleTold := by
  refine ⟨trivial, fun c1 h1 => ⟨trivial, fun c2 h2 => ⟨?_, fun c3 h3 => ⟨?_, fun c4 h4 => ⟨?_, fun _ _ => trivial⟩⟩⟩⟩⟩
  · exact pending_after (ops := exampleTold.take 2) (by simp only [exampleTold, List.take, List.foldlM, h1, h2, Option.bind_eq_bind, Option.bind_some]; rfl) (by decide +kernel)
  · exact pending_after (ops := exampleTold.take 3) (by simp only [exampleTold, List.take, List.foldlM, h1, h2, h3, Option.bind_eq_bind, Option.bind_some]; rfl) (by decide +kernel)
  · have := pending_after (c := c4) (ops := exampleTold.take 4) (by simp only [exampleTold, List.take, List.foldlM, h1, h2, h3, h4, Option.bind_eq_bind, Option.bind_some]; rfl) (by decide +kernel)
    show 0 ∉ c4.pending.map (·.1)
    rw [this]
    simp

/-- C76 refuted: the client asks for a new view and changes a setting before the next idle time.  The view is told the new value, and then,
when its setup is finished, the old one, which was put aside when it was made. -/
theorem C76_stale_refuted : toldAfter [.newView none, .modify .general [("tab_size", .num 8)], .idle fun _ => none] 0 "tab_size" = some (some (.num 4), some (.num 8)) := by decide +kernel

/-- C76 refuted: a view is closed before the next idle time after it was made: the core panics. -/
theorem C76_close_refuted : toldAfter [.newView none, .close 0] 0 "tab_size" = some (none, none) ∧ toldAfter [.newView none, .close 0, .idle fun _ => none] 0 "tab_size" = none := by
  constructor <;> decide +kernel

/-- C76 refuted: a setting without a default is removed: the view still has it. -/
theorem C76_gone_refuted : toldAfter [.newView none, .idle fun _ => none, .modify .general [("theme", .str "dark")], .modify .general [("theme", .null)]] 0 "theme" = some (some (.str "dark"), none) := by decide +kernel

end Xi
