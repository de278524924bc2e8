import Verif.Spec.LspSession
import Verif.Props.Lsp

/-!
# Sessions with language servers (C87)
-/

namespace Xi.Lsp

open Find

variable {H : Type}

/-! ## The invariant -/

/-- What holds of a client and its server. -/
structure ClientInv (s : Session H) (i : String) (c : Client) : Prop where
  asked : (s.servers i).asked = true
  ready : (s.servers i).ready = c.initialized
  fresh : ∀ id cb, c.pending id = some cb → id < c.nextId
  init : ∀ id v uri text, c.pending id = some (.init v uri text) → c.initialized = false ∧ (∀ id' v' uri' text', c.pending id' = some (.init v' uri' text') → id' = id) ∧
    s.plugin.info v = some (0, i) ∧ ∃ t, s.texts v = some t ∧ text = enc t
  unopened : c.initialized = false → ∀ v, c.opened v = none
  opened : ∀ v uri, c.opened v = some uri → ∃ version t doc old, s.plugin.info v = some (version, i) ∧ s.texts v = some t ∧
    (s.servers i).docs uri = some (doc, old) ∧ old ≤ version ∧ (c.syncKind ≠ .none → doc = t)
  docs : ∀ uri, (s.servers i).docs uri ≠ none → ∃ v, c.opened v = some uri
  inj : ∀ v w uri, c.opened v = some uri → c.opened w = some uri → v = w
  hovers : ∀ id v request, c.pending id = some (.hover v request) → (v, request) ∈ s.asked ∧ (s.texts v).isSome

/-- What holds of a session. -/
structure Inv (s : Session H) : Prop where
  client : ∀ i c, s.plugin.clients i = some c → ClientInv s i c
  noClient : ∀ i, s.plugin.clients i = none → s.servers i = {}
  info : ∀ v version i, s.plugin.info v = some (version, i) → v ∈ s.used ∧ (s.plugin.clients i).isSome
  used : ∀ v, (s.texts v).isSome → v ∈ s.used
  views : ∀ v, s.plugin.views v = (s.texts v).isSome
  queue : s.idles.length = s.plugin.results.length
  pairs : ∀ v request h, (v, request, h) ∈ s.idles.zip s.plugin.results → (v, request) ∈ s.asked
  open_ : ∀ v ∈ s.idles, (s.texts v).isSome
  shown : ∀ v request h, (v, request, h) ∈ s.shown → (v, request) ∈ s.asked

theorem setAt_apply {K V : Type} [DecidableEq K] (f : K → Option V) (k : K) (v : Option V) (x : K) : setAt f k v x = if x = k then v else f x := rfl

theorem applyOne_of {doc doc' : List Char} {ch : Change} (h : Applies doc ch doc') : applyOne doc ch = doc' := by
  obtain ⟨text, ht, h⟩ := h
  have hc : chars ch.text = text := by rw [ht]; exact chars_enc text
  unfold applyOne
  rw [hc]
  split <;> simp_all

theorem applyAll_of {doc doc' : List Char} {l : List Change} (h : AppliesAll doc l doc') : l.foldl applyOne doc = doc' := by
  induction h with
  | nil => rfl
  | cons h _ ih => rw [List.foldl_cons, applyOne_of h, ih]



theorem ClientInv.frame {s s' : Session H} {i : String} {c : Client} (h : ClientInv s i c) (hs : s'.servers i = s.servers i)
    (hi : ∀ v version, s.plugin.info v = some (version, i) → (c.initialized = false ∨ (c.opened v).isSome) → s'.plugin.info v = s.plugin.info v ∧ s'.texts v = s.texts v)
    (ha : ∀ x, x ∈ s.asked → x ∈ s'.asked) (ht : ∀ id v request, c.pending id = some (.hover v request) → (s'.texts v).isSome) : ClientInv s' i c where
  asked := by rw [hs]; exact h.asked
  ready := by rw [hs]; exact h.ready
  fresh := h.fresh
  init := by
    intro id v uri text hp
    obtain ⟨h1, h2, h3, t, h4, h5⟩ := h.init id v uri text hp
    obtain ⟨e1, e2⟩ := hi v 0 h3 (.inl h1)
    exact ⟨h1, h2, by rw [e1]; exact h3, t, by rw [e2]; exact h4, h5⟩
  unopened := h.unopened
  opened := by
    intro v uri ho
    obtain ⟨version, t, doc, old, h1, h2, h3, h4, h5⟩ := h.opened v uri ho
    obtain ⟨e1, e2⟩ := hi v version h1 (.inr (by rw [ho]; rfl))
    exact ⟨version, t, doc, old, by rw [e1]; exact h1, by rw [e2]; exact h2, by rw [hs]; exact h3, h4, h5⟩
  docs := by rw [hs]; exact h.docs
  inj := h.inj
  hovers := fun id v request hp => ⟨ha _ (h.hovers id v request hp).1, ht id v request hp⟩

/-- A settled view is not the one its server is initialised for. -/
theorem Inv.settled {s : Session H} (h : Inv s) {v version : Nat} {i : String} (hs : s.Settled v) (hi : s.plugin.info v = some (version, i)) :
    ∃ c uri, s.plugin.clients i = some c ∧ c.opened v = some uri ∧ c.initialized = true := by
  obtain ⟨c, uri, h1, h2⟩ := hs version i hi
  refine ⟨c, uri, h1, h2, ?_⟩
  cases hc : c.initialized with
  | true => rfl
  | false => rw [(h.client i c h1).unopened hc v] at h2; cases h2

theorem inv_start : Inv ({} : Session H) := by
  constructor <;> simp

theorem step_save {failed : H} {s : Session H} (h : Inv s) {v : Nat} (ho : s.Ok (.save v)) : ∃ s', s.step failed (.save v) = some s' ∧ Inv s' := by
  obtain ⟨hs, ht⟩ := ho
  have hv : s.plugin.views v = true := by rw [h.views]; exact ht
  cases hi : s.plugin.info v with
  | none => exact ⟨s, by simp [Session.step, LspPlugin.didSave, hv, hi, Session.after, takeAll], h⟩
  | some x =>
    obtain ⟨version, i⟩ := x
    obtain ⟨c, uri, h1, h2, h3⟩ := h.settled hs hi
    have ci := h.client i c h1
    obtain ⟨_, t, doc, old, _, _, h6, _⟩ := ci.opened v uri h2
    refine ⟨s, ?_, h⟩
    have : (fun j => if j = i then s.servers i else s.servers j) = s.servers := by funext j; split <;> simp_all
    simp [Session.step, LspPlugin.didSave, hv, hi, h1, h2, Session.after, takeAll, Server.take, ci.ready, h3, h6, this]

theorem step_update {failed : H} {s : Session H} (h : Inv s) {v : Nat} {changes : SyncKind → Option (Option (List Change))} {text : List Char}
    (ho : s.Ok (.update v changes text)) : ∃ s', s.step failed (.update v changes text) = some s' ∧ Inv s' := by
  obtain ⟨hs, old, ht, hch⟩ := ho
  have hv : s.plugin.views v = true := by rw [h.views, ht]; rfl
  have ht' : ∀ w, (setAt s.texts v (some text) w).isSome = (s.texts w).isSome := by
    intro w; rw [setAt_apply]; split <;> simp_all
  cases hi : s.plugin.info v with
  | none =>
    refine ⟨{ s with texts := setAt s.texts v (some text) }, by simp [Session.step, LspPlugin.update, hv, hi, Session.after, takeAll], ?_⟩
    constructor
    · intro i c hc
      refine (h.client i c hc).frame rfl (fun w version hw _ => ⟨rfl, ?_⟩) (fun _ hx => hx) (fun id w r hp => ?_)
      · show setAt s.texts v _ w = _
        rw [setAt_apply, if_neg]; rintro rfl; simp [hi] at hw
      · exact (ht' w).trans ((h.client i c hc).hovers id w r hp).2
    · exact h.noClient
    · exact h.info
    · exact fun w hw => h.used w ((ht' w).symm.trans hw)
    · exact fun w => (h.views w).trans (ht' w).symm
    · exact h.queue
    · exact h.pairs
    · exact fun w hw => (ht' w).trans (h.open_ w hw)
    · exact h.shown
  | some x =>
    obtain ⟨version, i⟩ := x
    obtain ⟨c, uri, h1, h2, h3⟩ := h.settled hs hi
    have ci := h.client i c h1
    obtain ⟨hn, hk⟩ := hch version i c hi h1
    obtain ⟨ver', t, doc, oldv, h4, h5, h6, h7, h8⟩ := ci.opened v uri h2
    have ev : ver' = version := by rw [hi] at h4; simp_all
    subst ev
    have et : t = old := by rw [ht] at h5; simp_all
    subst et
    -- the new state, up to the servers
    have key : ∀ servers : String → Server, (∀ j, j ≠ i → servers j = s.servers j) → (servers i).asked = true → (servers i).ready = true →
        (∀ u, u ≠ uri → (servers i).docs u = (s.servers i).docs u) →
        (∃ d o, (servers i).docs uri = some (d, o) ∧ o ≤ ver' + 1 ∧ (c.syncKind ≠ .none → d = text)) →
        Inv { s with plugin := { s.plugin with info := setAt s.plugin.info v (some (ver' + 1, i)) }, servers := servers, texts := setAt s.texts v (some text) } := by
      intro servers k1 k2 k3 k4 k5
      constructor
      · intro j cj hj
        have cj' := h.client j cj hj
        by_cases hji : j = i
        · subst hji
          have : cj = c := by rw [h1] at hj; simp_all
          subst this
          obtain ⟨d, o, k5, k6, k7⟩ := k5
          exact {
            asked := k2
            ready := by rw [h3]; exact k3
            fresh := cj'.fresh
            init := fun id w u tx hp => by
              have := (cj'.init id w u tx hp).1
              rw [h3] at this; cases this
            unopened := fun hf => by rw [h3] at hf; cases hf
            opened := by
              intro w u hw
              by_cases hwv : w = v
              · subst hwv
                have : u = uri := by rw [h2] at hw; simp_all
                subst this
                exact ⟨ver' + 1, text, d, o, by simp [setAt], by simp [setAt], k5, k6, k7⟩
              · obtain ⟨a, b, e, f, g1, g2, g3, g4⟩ := cj'.opened w u hw
                have hu : u ≠ uri := by rintro rfl; exact hwv (cj'.inj w v u hw h2)
                exact ⟨a, b, e, f, by simp [setAt, hwv, g1], by simp [setAt, hwv, g2], (k4 u hu).trans g3, g4⟩
            docs := by
              intro u hu
              by_cases he : u = uri
              · exact ⟨v, by rw [he]; exact h2⟩
              · exact cj'.docs u (by rw [← k4 u he]; exact hu)
            inj := cj'.inj
            hovers := fun id w r hp => ⟨(cj'.hovers id w r hp).1, (ht' w).trans (cj'.hovers id w r hp).2⟩ }
        · refine cj'.frame (k1 j hji) (fun w ver hw _ => ?_) (fun _ hx => hx) (fun id w r hp => (ht' w).trans (cj'.hovers id w r hp).2)
          have hwv : w ≠ v := by rintro rfl; rw [hi] at hw; simp_all
          exact ⟨by simp [setAt, hwv], by simp [setAt, hwv]⟩
      · intro j hj
        have hji : j ≠ i := by rintro rfl; rw [h1] at hj; cases hj
        exact (k1 j hji).trans (h.noClient j hj)
      · intro w ver j hw
        by_cases hwv : w = v
        · subst hwv
          have : j = i := by simp [setAt] at hw; exact hw.2.symm
          subst this
          exact h.info w ver' j hi
        · exact h.info w ver j (by simpa [setAt, hwv] using hw)
      · exact fun w hw => h.used w ((ht' w).symm.trans hw)
      · exact fun w => (h.views w).trans (ht' w).symm
      · exact h.queue
      · exact h.pairs
      · exact fun w hw => (ht' w).trans (h.open_ w hw)
      · exact h.shown
    by_cases hkn : c.syncKind = .none
    · refine ⟨_, ?_, key s.servers (fun _ _ => rfl) ci.asked (ci.ready.trans h3) (fun _ _ => rfl) ⟨doc, oldv, h6, by omega, fun e => absurd hkn e⟩⟩
      simp [Session.step, LspPlugin.update, hv, hi, h1, hkn, hn, Session.after, takeAll]
    · obtain ⟨l, hl, hap⟩ := hk hkn
      have hd : doc = t := h8 hkn
      subst hd
      refine ⟨_, ?_, key (fun j => if j = i then { s.servers i with docs := setAt (s.servers i).docs uri (some (text, ver' + 1)) } else s.servers j)
        (fun j hj => by simp [hj]) (by simpa using ci.asked) (by simpa [h3] using ci.ready) (fun u hu => by simp [setAt, hu])
        ⟨text, ver' + 1, by simp [setAt], Nat.le_refl _, fun _ => rfl⟩⟩
      have hlt : oldv < ver' + 1 := by omega
      simp [Session.step, LspPlugin.update, hv, hi, h1, h2, hl, Session.after, takeAll, Server.take, h6, ci.ready, h3, hlt, applyAll_of hap]


theorem step_close {failed : H} {s : Session H} (h : Inv s) {v : Nat} (ho : s.Ok (.close v)) : ∃ s', s.step failed (.close v) = some s' ∧ Inv s' := by
  obtain ⟨hs, ht, hid, hp⟩ := ho
  have hv : s.plugin.views v = true := by rw [h.views]; exact ht
  have keep : ∀ w, w ≠ v → setAt s.texts v none w = s.texts w := fun w hw => by simp [setAt, hw]
  have views : ∀ w, (decide (w ≠ v) && s.plugin.views w) = (setAt s.texts v none w).isSome := by
    intro w
    by_cases hw : w = v
    · simp [hw, setAt]
    · simp [hw, setAt, h.views]
  have used : ∀ w, (setAt s.texts v none w).isSome → w ∈ s.used := by
    intro w hw
    by_cases he : w = v
    · simp [he, setAt] at hw
    · rw [keep w he] at hw; exact h.used w hw
  have hov : ∀ i c, s.plugin.clients i = some c → ∀ id w r, c.pending id = some (.hover w r) → (setAt s.texts v none w).isSome := by
    intro i c hc id w r hq
    have : w ≠ v := by rintro rfl; exact hp i c id r hc hq
    rw [keep w this]; exact ((h.client i c hc).hovers id w r hq).2
  have opn : ∀ w ∈ s.idles, (setAt s.texts v none w).isSome := by
    intro w hw
    have : w ≠ v := by rintro rfl; exact hid hw
    rw [keep w this]; exact h.open_ w hw
  cases hi : s.plugin.info v with
  | none =>
    refine ⟨{ s with plugin := { s.plugin with views := fun w => decide (w ≠ v) && s.plugin.views w }, texts := setAt s.texts v none },
      by simp [Session.step, LspPlugin.didClose, hv, hi, Session.after, takeAll], ?_⟩
    constructor
    · intro i c hc
      refine (h.client i c hc).frame rfl (fun w version hw _ => ⟨rfl, keep w ?_⟩) (fun _ hx => hx) (hov i c hc)
      rintro rfl; simp [hi] at hw
    · exact h.noClient
    · exact h.info
    · exact used
    · exact views
    · exact h.queue
    · exact h.pairs
    · exact opn
    · exact h.shown
  | some x =>
    obtain ⟨version, i⟩ := x
    obtain ⟨c, uri, h1, h2, h3⟩ := h.settled hs hi
    have ci := h.client i c h1
    obtain ⟨_, t, doc, old, _, _, h6, _⟩ := ci.opened v uri h2
    refine ⟨{ s with
        plugin := { s.plugin with views := fun w => decide (w ≠ v) && s.plugin.views w,
                                  clients := setAt s.plugin.clients i (some { c with opened := setAt c.opened v none }) }
        servers := fun j => if j = i then { s.servers i with docs := setAt (s.servers i).docs uri none } else s.servers j
        texts := setAt s.texts v none },
      by simp [Session.step, LspPlugin.didClose, hv, hi, h1, h2, Session.after, takeAll, Server.take, ci.ready, h3, h6], ?_⟩
    constructor
    · intro j cj hj
      by_cases hji : j = i
      · subst hji
        have : cj = { c with opened := setAt c.opened v none } := by simpa [setAt] using hj.symm
        subst this
        exact {
          asked := by simpa using ci.asked
          ready := by simpa using ci.ready
          fresh := ci.fresh
          init := fun id w u tx hq => by
            have := (ci.init id w u tx hq).1
            rw [h3] at this; cases this
          unopened := fun hf => by
            have hf : c.initialized = false := hf
            rw [h3] at hf; cases hf
          opened := by
            intro w u hw
            have hwv : w ≠ v := by rintro rfl; simp [setAt] at hw
            have hw : c.opened w = some u := by simpa [setAt, hwv] using hw
            obtain ⟨a, b, e, f, g1, g2, g3, g4⟩ := ci.opened w u hw
            have hu : u ≠ uri := by rintro rfl; exact hwv (ci.inj w v u hw h2)
            exact ⟨a, b, e, f, g1, (keep w hwv).trans g2, by simpa [setAt, hu] using g3, g4⟩
          docs := by
            intro u hu
            have he : u ≠ uri := by rintro rfl; simp [setAt] at hu
            obtain ⟨w, hw⟩ := ci.docs u (by simpa [setAt, he] using hu)
            have hwv : w ≠ v := by
              rintro rfl
              rw [h2] at hw
              exact he (Option.some.inj hw).symm
            exact ⟨w, by simpa [setAt, hwv] using hw⟩
          inj := by
            intro a b u ha hb
            have hav : a ≠ v := by rintro rfl; simp [setAt] at ha
            have hbv : b ≠ v := by rintro rfl; simp [setAt] at hb
            exact ci.inj a b u (by simpa [setAt, hav] using ha) (by simpa [setAt, hbv] using hb)
          hovers := fun id w r hq => ⟨(ci.hovers id w r hq).1, hov j c h1 id w r hq⟩ }
      · have hj : s.plugin.clients j = some cj := by simpa [setAt, hji] using hj
        refine (h.client j cj hj).frame (by simp [hji]) (fun w ver hw _ => ⟨rfl, keep w ?_⟩) (fun _ hx => hx) (hov j cj hj)
        rintro rfl; rw [hi] at hw; simp_all
    · intro j hj
      have hji : j ≠ i := by rintro rfl; simp [setAt] at hj
      simpa [hji] using h.noClient j (by simpa [setAt, hji] using hj)
    · intro w ver j hw
      refine ⟨(h.info w ver j hw).1, ?_⟩
      show (setAt s.plugin.clients i _ j).isSome
      rw [setAt_apply]
      split
      · rfl
      · exact (h.info w ver j hw).2
    · exact used
    · exact views
    · exact h.queue
    · exact h.pairs
    · exact opn
    · exact h.shown

/-- A client that only has other requests. -/
theorem ClientInv.hoverChange {s : Session H} {i : String} {c c' : Client} (h : ClientInv s i c) (he : c'.initialized = c.initialized) (hs : c'.sync = c.sync)
    (ho : c'.opened = c.opened) (hf : ∀ id cb, c'.pending id = some cb → id < c'.nextId)
    (hi : ∀ id v uri text, c'.pending id = some (.init v uri text) → c.pending id = some (.init v uri text))
    (hh : ∀ id v r, c'.pending id = some (.hover v r) → (v, r) ∈ s.asked ∧ (s.texts v).isSome) : ClientInv s i c' where
  asked := h.asked
  ready := h.ready.trans he.symm
  fresh := hf
  init := by
    intro id v uri text hp
    obtain ⟨h1, h2, h3⟩ := h.init id v uri text (hi id v uri text hp)
    exact ⟨he.trans h1, fun id' v' uri' text' hp' => h2 id' v' uri' text' (hi id' v' uri' text' hp'), h3⟩
  unopened := by rw [he, ho]; exact h.unopened
  opened := by
    rw [ho]
    intro v uri hv
    obtain ⟨a, b, d, e, h1, h2, h3, h4, h5⟩ := h.opened v uri hv
    exact ⟨a, b, d, e, h1, h2, h3, h4, by rw [Client.syncKind, hs]; exact h5⟩
  docs := by rw [ho]; exact h.docs
  inj := by rw [ho]; exact h.inj
  hovers := hh

theorem zip_snoc {A B : Type} {l : List A} {m : List B} (h : l.length = m.length) (a : A) (b : B) : (l ++ [a]).zip (m ++ [b]) = l.zip m ++ [(a, b)] := by
  rw [List.zip_append h]; rfl

/-- Another client takes the place of a client, and a result may come to the queue. -/
theorem Inv.replace {s s' : Session H} (h : Inv s) {i : String} {c c' : Client} (h1 : s.plugin.clients i = some c) (hc : ClientInv s' i c')
    (hp : s'.plugin.clients = setAt s.plugin.clients i (some c')) (hv : s'.plugin.views = s.plugin.views) (hinfo : s'.plugin.info = s.plugin.info)
    (hserv : ∀ j, j ≠ i → s'.servers j = s.servers j) (htx : s'.texts = s.texts) (hu : s'.used = s.used) (ha : ∀ x, x ∈ s.asked → x ∈ s'.asked)
    (hsh : s'.shown = s.shown)
    (hq : (s'.idles = s.idles ∧ s'.plugin.results = s.plugin.results) ∨
      ∃ v r x, s'.idles = s.idles ++ [v] ∧ s'.plugin.results = s.plugin.results ++ [(r, x)] ∧ (v, r) ∈ s'.asked ∧ (s.texts v).isSome) : Inv s' where
  client := by
    intro j cj hj
    rw [hp, setAt_apply] at hj
    split at hj
    · rename_i e; subst e; cases hj; exact hc
    · rename_i e
      exact (h.client j cj hj).frame (hserv j e) (fun w ver hw _ => ⟨by rw [hinfo], by rw [htx]⟩) ha
        (fun id w r hq => by rw [htx]; exact ((h.client j cj hj).hovers id w r hq).2)
  noClient := by
    intro j hj
    rw [hp, setAt_apply] at hj
    split at hj
    · cases hj
    · rename_i e; rw [hserv j e]; exact h.noClient j hj
  info := by
    intro v ver j hj
    rw [hinfo] at hj
    rw [hu, hp, setAt_apply]
    refine ⟨(h.info v ver j hj).1, ?_⟩
    split
    · rfl
    · exact (h.info v ver j hj).2
  used := by rw [htx, hu]; exact h.used
  views := by rw [hv, htx]; exact h.views
  queue := by
    rcases hq with ⟨e1, e2⟩ | ⟨v, r, x, e1, e2, -⟩
    · rw [e1, e2]; exact h.queue
    · rw [e1, e2]; simp [h.queue]
  pairs := by
    intro w q y hm
    rcases hq with ⟨e1, e2⟩ | ⟨v, r, x, e1, e2, e3, -⟩
    · rw [e1, e2] at hm; exact ha _ (h.pairs w q y hm)
    · rw [e1, e2, zip_snoc h.queue, List.mem_append] at hm
      rcases hm with hm | hm
      · exact ha _ (h.pairs w q y hm)
      · simp only [List.mem_singleton, Prod.mk.injEq] at hm
        rw [hm.1, hm.2.1]; exact e3
  open_ := by
    intro w hw
    rw [htx]
    rcases hq with ⟨e1, -⟩ | ⟨v, r, x, e1, -, -, e4⟩
    · rw [e1] at hw; exact h.open_ w hw
    · rw [e1, List.mem_append] at hw
      rcases hw with hw | hw
      · exact h.open_ w hw
      · rw [List.mem_singleton.1 hw]; exact e4
  shown := by rw [hsh]; exact fun v r x hx => ha _ (h.shown v r x hx)

theorem step_hover {failed : H} {s : Session H} (h : Inv s) {v request : Nat} {position : Option Position} (ho : s.Ok (.hover v request position)) :
    ∃ s', s.step failed (.hover v request position) = some s' ∧ Inv s' := by
  obtain ⟨hs, ht⟩ := ho
  have hv : s.plugin.views v = true := by rw [h.views]; exact ht
  cases hi : s.plugin.info v with
  | none =>
    refine ⟨{ s with asked := (v, request) :: s.asked }, by simp [Session.step, LspPlugin.getHover, hv, hi, Session.after, takeAll], ?_⟩
    exact { client := fun i c hc => (h.client i c hc).frame rfl (fun _ _ _ _ => ⟨rfl, rfl⟩) (fun _ hx => List.mem_cons_of_mem _ hx)
              (fun id w r hq => ((h.client i c hc).hovers id w r hq).2)
            noClient := h.noClient, info := h.info, used := h.used, views := h.views, queue := h.queue
            pairs := fun w r x hx => List.mem_cons_of_mem _ (h.pairs w r x hx), open_ := h.open_
            shown := fun w r x hx => List.mem_cons_of_mem _ (h.shown w r x hx) }
  | some x =>
    obtain ⟨version, i⟩ := x
    obtain ⟨c, uri, h1, h2, h3⟩ := h.settled hs hi
    have ci := h.client i c h1
    obtain ⟨_, t, doc, old, _, _, h6, _⟩ := ci.opened v uri h2
    have ci' : ∀ s' : Session H, s'.servers = s.servers → s'.plugin.info = s.plugin.info → s'.texts = s.texts → s'.asked = (v, request) :: s.asked → ClientInv s' i c := by
      intro s' e1 e2 e3 e4
      exact ci.frame (by rw [e1]) (fun _ _ _ _ => ⟨by rw [e2], by rw [e3]⟩) (fun _ hx => by rw [e4]; exact List.mem_cons_of_mem _ hx)
        (fun id w r hq => by rw [e3]; exact (ci.hovers id w r hq).2)
    cases position with
    | some position =>
      refine ⟨{ s with asked := (v, request) :: s.asked
                       plugin := { s.plugin with clients := setAt s.plugin.clients i (some (c.request (.hover v request)).2) } }, ?_, ?_⟩
      · have : (fun j => if j = i then s.servers i else s.servers j) = s.servers := by funext j; split <;> simp_all
        simp [Session.step, LspPlugin.getHover, hv, hi, h1, h2, Session.after, takeAll, Server.take, ci.ready, h3, h6, this]
      · refine h.replace h1 (c' := (c.request (.hover v request)).2) ?_ rfl rfl rfl (fun _ _ => rfl) rfl rfl (fun _ hx => List.mem_cons_of_mem _ hx) rfl (.inl ⟨rfl, rfl⟩)
        refine ClientInv.hoverChange (c := c) (ci' _ ?_ ?_ ?_ ?_) rfl rfl rfl ?_ ?_ ?_
        · rfl
        · rfl
        · rfl
        · rfl
        · intro id cb hq
          simp only [Client.request, setAt_apply] at hq ⊢
          split at hq
          · omega
          · have := ci.fresh id cb hq; omega
        · intro id w u tx hq
          simp only [Client.request, setAt_apply] at hq
          split at hq
          · cases hq
          · exact hq
        · intro id w r hq
          simp only [Client.request, setAt_apply] at hq
          split at hq
          · cases hq; exact ⟨List.mem_cons_self, ht⟩
          · exact ⟨List.mem_cons_of_mem _ (ci.hovers id w r hq).1, (ci.hovers id w r hq).2⟩
    | none =>
      refine ⟨{ s with asked := (v, request) :: s.asked, idles := s.idles ++ [v]
                       plugin := { s.plugin with results := s.plugin.results ++ [(request, failed)] } },
        by simp [Session.step, LspPlugin.getHover, hv, hi, h1, Session.after, takeAll], ?_⟩
      refine h.replace h1 (c' := c) (ci' _ rfl rfl rfl rfl) ?_ rfl rfl (fun _ _ => rfl) rfl rfl (fun _ hx => List.mem_cons_of_mem _ hx) rfl
        (.inr ⟨v, request, failed, rfl, rfl, List.mem_cons_self, ht⟩)
      funext j
      rw [setAt_apply]
      split
      · rename_i e; rw [e]; exact h1
      · rfl

theorem step_idle {failed : H} {s : Session H} (h : Inv s) : ∃ s', s.step failed .idle = some s' ∧ Inv s' := by
  cases hd : s.idles with
  | nil => exact ⟨s, by simp [Session.step, hd], h⟩
  | cons v rest =>
    have hq := h.queue
    rw [hd] at hq
    cases hr : s.plugin.results with
    | nil => rw [hr] at hq; simp at hq
    | cons x results =>
      obtain ⟨request, y⟩ := x
      have hvv : (s.texts v).isSome := h.open_ v (by rw [hd]; exact List.mem_cons_self)
      have hv : s.plugin.views v = true := by rw [h.views]; exact hvv
      have hpair := h.pairs
      rw [hd, hr] at hpair
      have ha : (v, request) ∈ s.asked := hpair v request y (by simp)
      have key : ∀ shown : List (Nat × Nat × H), (∀ w r x, (w, r, x) ∈ shown → (w, r) ∈ s.asked) →
          Inv { s with idles := rest, plugin := { s.plugin with results := results }, shown := shown } := by
        intro shown hsh
        exact { client := fun i c hc => (h.client i c hc).frame rfl (fun _ _ _ _ => ⟨rfl, rfl⟩) (fun _ hx => hx)
                  (fun id w r hq => ((h.client i c hc).hovers id w r hq).2)
                noClient := h.noClient, info := h.info, used := h.used, views := h.views
                queue := by rw [hr] at hq; simpa using hq
                pairs := fun w r x hx => hpair w r x (by simp only [List.zip_cons_cons]; exact List.mem_cons_of_mem _ hx)
                open_ := fun w hw => h.open_ w (by rw [hd]; exact List.mem_cons_of_mem _ hw)
                shown := hsh }
      cases hi : s.plugin.info v with
      | none => exact ⟨_, by simp [Session.step, hd, LspPlugin.idle, hv, hr, hi, Session.after, takeAll], key s.shown h.shown⟩
      | some x =>
        obtain ⟨version, i⟩ := x
        obtain ⟨c, hc⟩ := Option.isSome_iff_exists.1 (h.info v version i hi).2
        refine ⟨_, by simp [Session.step, hd, LspPlugin.idle, hv, hr, hi, hc, Session.after, takeAll], key (s.shown ++ [(v, request, y)]) ?_⟩
        intro w r x hx
        rw [List.mem_append] at hx
        rcases hx with hx | hx
        · exact h.shown w r x hx
        · simp only [List.mem_singleton, Prod.mk.injEq] at hx
          rw [hx.1, hx.2.1]; exact ha


theorem step_answer {failed : H} {s : Session H} (h : Inv s) {i : String} {id : Nat} {a : Answer H} (ho : s.Ok (.answer i id a)) :
    ∃ s', s.step failed (.answer i id a) = some s' ∧ Inv s' := by
  obtain ⟨c, cb, h1, h2, h3⟩ := ho
  have ci := h.client i c h1
  have pend : ∀ id' cb', setAt c.pending id none id' = some cb' → c.pending id' = some cb' ∧ id' ≠ id := by
    intro id' cb' hp
    rw [setAt_apply] at hp
    split at hp
    · cases hp
    · rename_i e; exact ⟨hp, e⟩
  have hov : ∀ (v request : Nat) (x : H), c.pending id = some (.hover v request) →
      Inv { s with plugin := { s.plugin with clients := setAt s.plugin.clients i (some { c with pending := setAt c.pending id none }),
                                             results := s.plugin.results ++ [(request, x)] }, idles := s.idles ++ [v] } := by
    intro v request x hp
    refine h.replace h1 (c' := { c with pending := setAt c.pending id none }) ?_ rfl rfl rfl (fun _ _ => rfl) rfl rfl (fun _ hx => hx) rfl
      (.inr ⟨v, request, x, rfl, rfl, (ci.hovers id v request hp).1, (ci.hovers id v request hp).2⟩)
    refine ClientInv.hoverChange (c := c) ?_ rfl rfl rfl (fun id' cb' hq => ci.fresh id' cb' (pend id' cb' hq).1)
      (fun id' w u tx hq => (pend id' _ hq).1) (fun id' w r hq => ci.hovers id' w r (pend id' _ hq).1)
    exact ci.frame rfl (fun _ _ _ _ => ⟨rfl, rfl⟩) (fun _ hx => hx) (fun id w r hq => (ci.hovers id w r hq).2)
  cases cb with
  | hover v request =>
    cases a with
    | capabilities _ => exact h3.elim
    | hover x => exact ⟨_, by simp [Session.step, LspPlugin.answer, h1, h2, Session.after, takeAll], hov v request x h2⟩
    | error x => exact ⟨_, by simp [Session.step, LspPlugin.answer, h1, h2, Session.after, takeAll], hov v request x h2⟩
  | init v uri text =>
    cases a with
    | hover _ => exact h3.elim
    | error _ => exact h3.elim
    | capabilities sync =>
      obtain ⟨g1, g2, g3, t, g4, g5⟩ := ci.init id v uri text h2
      have none_open := ci.unopened g1
      have no_docs : ∀ u, (s.servers i).docs u = none := by
        intro u
        cases hu : (s.servers i).docs u with
        | none => rfl
        | some x =>
          obtain ⟨w, hw⟩ := ci.docs u (by rw [hu]; exact Option.some_ne_none x)
          rw [none_open w] at hw; cases hw
      refine ⟨{ s with
          plugin := { s.plugin with clients := setAt s.plugin.clients i (some { c with pending := setAt c.pending id none, sync := sync, initialized := true, opened := setAt c.opened v (some uri) }) }
          servers := fun j => if j = i then { s.servers i with ready := true, docs := setAt (s.servers i).docs uri (some (t, 0)) } else s.servers j }, ?_, ?_⟩
      · have hch : chars text = t := by rw [g5]; exact chars_enc t
        simp [Session.step, LspPlugin.answer, h1, h2, Session.after, takeAll, Server.take, no_docs, hch]
        funext j
        split <;> rfl
      · refine h.replace h1 (c' := { c with pending := setAt c.pending id none, sync := sync, initialized := true, opened := setAt c.opened v (some uri) })
          ?_ rfl rfl rfl (fun j hj => by simp [hj]) rfl rfl (fun _ hx => hx) rfl (.inl ⟨rfl, rfl⟩)
        exact {
          asked := by simpa using ci.asked
          ready := by simp
          fresh := fun id' cb' hq => ci.fresh id' cb' (pend id' cb' hq).1
          init := fun id' w u tx hq => absurd (g2 id' w u tx (pend id' _ hq).1) (pend id' _ hq).2
          unopened := fun hf => by cases hf
          opened := by
            intro w u hw
            have hw : setAt c.opened v (some uri) w = some u := hw
            rw [setAt_apply] at hw
            split at hw
            · rename_i e; rw [e]; cases hw
              exact ⟨0, t, t, 0, g3, g4, by simp [setAt], Nat.le_refl _, fun _ => rfl⟩
            · rw [none_open w] at hw; cases hw
          docs := by
            intro u hu
            by_cases he : u = uri
            · exact ⟨v, by simp [setAt, he]⟩
            · exact absurd (by simpa [setAt, he] using no_docs u) hu
          inj := by
            intro x y u hx hy
            have hx : setAt c.opened v (some uri) x = some u := hx
            have hy : setAt c.opened v (some uri) y = some u := hy
            rw [setAt_apply] at hx hy
            split at hx
            · split at hy
              · simp_all
              · rw [none_open y] at hy; cases hy
            · rw [none_open x] at hx; cases hx
          hovers := fun id' w r hq => ci.hovers id' w r (pend id' _ hq).1 }

theorem step_newView {failed : H} {s : Session H} (h : Inv s) {n : NewView} {text : List Char} (ho : s.Ok (.newView n text)) :
    ∃ s', s.step failed (.newView n text) = some s' ∧ Inv s' := by
  obtain ⟨hu, htx, hn⟩ := ho
  have hnt : s.texts n.view = none := by
    cases ht : s.texts n.view with
    | none => rfl
    | some x => exact absurd (h.used n.view (by rw [ht]; rfl)) hu
  have hni : ∀ ver j, s.plugin.info n.view ≠ some (ver, j) := fun ver j he => hu (h.info n.view ver j he).1
  have keep : ∀ w, w ≠ n.view → setAt s.texts n.view (some text) w = s.texts w := fun w hw => by simp [setAt, hw]
  have mono : ∀ w, (s.texts w).isSome → (setAt s.texts n.view (some text) w).isSome := by
    intro w hw; rw [setAt_apply]; split
    · rfl
    · exact hw
  have views : ∀ w, (decide (w = n.view) || s.plugin.views w) = (setAt s.texts n.view (some text) w).isSome := by
    intro w
    by_cases hw : w = n.view
    · simp [hw, setAt]
    · simp [hw, setAt, h.views]
  have used : ∀ w, (setAt s.texts n.view (some text) w).isSome → w ∈ n.view :: s.used := by
    intro w hw
    by_cases he : w = n.view
    · rw [he]; exact List.mem_cons_self
    · rw [keep w he] at hw; exact List.mem_cons_of_mem _ (h.used w hw)
  -- the client of the view is put in place of what was there
  have key : ∀ (i : String) (c : Client) (servers : String → Server), (∀ j, j ≠ i → servers j = s.servers j) →
      (∀ s' : Session H, s'.servers = servers → s'.plugin.info = setAt s.plugin.info n.view (some (0, i)) → s'.texts = setAt s.texts n.view (some text) →
        s'.asked = s.asked → ClientInv s' i c) →
      Inv { s with plugin := { s.plugin with views := fun w => decide (w = n.view) || s.plugin.views w, info := setAt s.plugin.info n.view (some (0, i)),
                                             clients := setAt s.plugin.clients i (some c) },
                   servers := servers, texts := setAt s.texts n.view (some text), used := n.view :: s.used } := by
    intro i c servers hs hc
    constructor
    · intro j cj hj
      have hj : setAt s.plugin.clients i (some c) j = some cj := hj
      rw [setAt_apply] at hj
      split at hj
      · rename_i e; rw [e]; cases hj; exact hc _ rfl rfl rfl rfl
      · rename_i e
        refine (h.client j cj hj).frame (hs j e) (fun w ver hw _ => ?_) (fun _ hx => hx) (fun id w r hq => mono w ((h.client j cj hj).hovers id w r hq).2)
        have hwn : w ≠ n.view := by rintro rfl; exact hni ver j hw
        exact ⟨by simp [setAt, hwn], keep w hwn⟩
    · intro j hj
      have hj : setAt s.plugin.clients i (some c) j = none := hj
      rw [setAt_apply] at hj
      split at hj
      · cases hj
      · rename_i e; exact (hs j e).trans (h.noClient j hj)
    · intro w ver j hw
      have hw : setAt s.plugin.info n.view (some (0, i)) w = some (ver, j) := hw
      show w ∈ n.view :: s.used ∧ (setAt s.plugin.clients i (some c) j).isSome
      rw [setAt_apply] at hw ⊢
      split at hw
      · rename_i e; cases hw; rw [e]; exact ⟨List.mem_cons_self, by simp⟩
      · refine ⟨List.mem_cons_of_mem _ (h.info w ver j hw).1, ?_⟩
        split
        · rfl
        · exact (h.info w ver j hw).2
    · exact used
    · exact views
    · exact h.queue
    · exact h.pairs
    · exact fun w hw => mono w (h.open_ w hw)
    · exact h.shown
  have plain : (n.language = none ∨ n.identifier = none) → ∃ s', s.step failed (.newView n text) = some s' ∧ Inv s' := by
    intro hno
    refine ⟨{ s with plugin := { s.plugin with views := fun w => decide (w = n.view) || s.plugin.views w },
                     texts := setAt s.texts n.view (some text), used := n.view :: s.used }, ?_, ?_⟩
    · rcases hno with e | e
      · simp [Session.step, LspPlugin.newView, e, Session.after, takeAll]
      · cases hl : n.language <;> simp [Session.step, LspPlugin.newView, e, hl, Session.after, takeAll]
    · exact { client := fun i c hc => by
                refine (h.client i c hc).frame rfl (fun w ver hw _ => ⟨rfl, keep w ?_⟩) (fun _ hx => hx) (fun id w r hq => mono w ((h.client i c hc).hovers id w r hq).2)
                rintro rfl; exact hni ver i hw
              noClient := h.noClient
              info := fun w ver j hw => ⟨List.mem_cons_of_mem _ (h.info w ver j hw).1, (h.info w ver j hw).2⟩
              used := used, views := views, queue := h.queue, pairs := h.pairs, open_ := fun w hw => mono w (h.open_ w hw), shown := h.shown }
  cases hl : n.language with
  | none => exact plain (.inl hl)
  | some language =>
    cases hid : n.identifier with
    | none => exact plain (.inr hid)
    | some i =>
      cases hc : s.plugin.clients i with
      | none =>
        have hsv := h.noClient i hc
        refine ⟨_, ?_, key i (Client.request { language := language } (.init n.view n.uri n.text)).2
          (fun j => if j = i then { asked := true } else s.servers j) (fun j hj => by simp [hj]) ?_⟩
        · simp [Session.step, LspPlugin.newView, LspPlugin.clientFor, hl, hid, hc, Session.after, takeAll, Server.take, hsv]
        · intro s' e1 e2 e3 e4
          have one : ∀ id cb, (Client.request { language := language } (.init n.view n.uri n.text)).2.pending id = some cb → id = 1 ∧ cb = .init n.view n.uri n.text := by
            intro id cb hq
            simp only [Client.request, setAt_apply] at hq
            split at hq
            · rename_i e; cases hq; exact ⟨e, rfl⟩
            · cases hq
          exact {
            asked := by rw [e1]; simp
            ready := by rw [e1]; simp [Client.request]
            fresh := fun id cb hq => by rw [(one id cb hq).1]; simp [Client.request]
            init := by
              intro id w u tx hq
              obtain ⟨o1, o2⟩ := one id _ hq
              cases o2
              refine ⟨rfl, fun id' v' u' t' hq' => by rw [(one id' _ hq').1, o1], by rw [e2]; simp [setAt], text, by rw [e3]; simp [setAt], htx⟩
            unopened := fun _ _ => rfl
            opened := fun w u hw => by cases hw
            docs := fun u hu => by rw [e1] at hu; simp at hu
            inj := fun a b u ha hb => by cases ha
            hovers := fun id w r hq => by cases (one id _ hq).2 }
      | some c =>
        obtain ⟨hci, hop⟩ := hn i c hid hc
        have ci := h.client i c hc
        have hdoc : (s.servers i).docs n.uri = none := by
          cases hd : (s.servers i).docs n.uri with
          | none => rfl
          | some x =>
            obtain ⟨w, hw⟩ := ci.docs n.uri (by rw [hd]; exact Option.some_ne_none x)
            exact absurd hw (hop w)
        refine ⟨_, ?_, key i { c with opened := setAt c.opened n.view (some n.uri) }
          (fun j => if j = i then { s.servers i with docs := setAt (s.servers i).docs n.uri (some (text, 0)) } else s.servers j) (fun j hj => by simp [hj]) ?_⟩
        · have hch : chars n.text = text := by rw [htx]; exact chars_enc text
          simp [Session.step, LspPlugin.newView, LspPlugin.clientFor, hl, hid, hc, hci, Session.after, takeAll, Server.take, ci.ready, hdoc, hch]
        · intro s' e1 e2 e3 e4
          exact {
            asked := by rw [e1]; simpa using ci.asked
            ready := by rw [e1]; simpa using ci.ready
            fresh := ci.fresh
            init := fun id w u tx hq => by
              have := (ci.init id w u tx hq).1
              rw [hci] at this; cases this
            unopened := fun hf => by
              have hf : c.initialized = false := hf
              rw [hci] at hf; cases hf
            opened := by
              intro w u hw
              have hw : setAt c.opened n.view (some n.uri) w = some u := hw
              rw [setAt_apply] at hw
              rw [e1, e2, e3]
              split at hw
              · rename_i e; cases hw; rw [e]
                exact ⟨0, text, text, 0, by simp [setAt], by simp [setAt], by simp [setAt], Nat.le_refl _, fun _ => rfl⟩
              · rename_i e
                obtain ⟨a, b, d, f, g1, g2, g3, g4⟩ := ci.opened w u hw
                have hne : u ≠ n.uri := by rintro rfl; exact hop w hw
                exact ⟨a, b, d, f, by simpa [setAt, e] using g1, (keep w e).trans g2, by simpa [setAt, hne] using g3, g4⟩
            docs := by
              intro u hu
              rw [e1] at hu
              by_cases he : u = n.uri
              · exact ⟨n.view, by simp [setAt, he]⟩
              · obtain ⟨w, hw⟩ := ci.docs u (by simpa [setAt, he] using hu)
                refine ⟨w, ?_⟩
                show setAt c.opened n.view (some n.uri) w = some u
                rw [setAt_apply, if_neg]
                · exact hw
                · rintro rfl
                  obtain ⟨a, b, d, f, g1, -⟩ := ci.opened _ u hw
                  exact hni a i g1
            inj := by
              intro x y u hx hy
              have hx : setAt c.opened n.view (some n.uri) x = some u := hx
              have hy : setAt c.opened n.view (some n.uri) y = some u := hy
              rw [setAt_apply] at hx hy
              split at hx
              · cases hx
                split at hy
                · simp_all
                · exact absurd hy (hop y)
              · split at hy
                · cases hy; exact absurd hx (hop x)
                · exact ci.inj x y u hx hy
            hovers := fun id w r hq => by rw [e3, e4]; exact ⟨(ci.hovers id w r hq).1, mono w (ci.hovers id w r hq).2⟩ }

theorem step_inv {failed : H} {s : Session H} (h : Inv s) (e : Event H) (ho : s.Ok e) : ∃ s', s.step failed e = some s' ∧ Inv s' := by
  cases e with
  | newView n text => exact step_newView h ho
  | update v changes text => exact step_update h ho
  | save v => exact step_save h ho
  | close v => exact step_close h ho
  | hover v request position => exact step_hover h ho
  | idle => exact step_idle h
  | answer i id a => exact step_answer h ho

theorem Reach.inv {failed : H} {s : Session H} (h : Reach failed s) : Inv s := by
  induction h with
  | start => exact inv_start
  | step _ ho he ih =>
    obtain ⟨s'', e, hi⟩ := step_inv ih _ ho
    rw [e] at he; cases he; exact hi


open Plugin

variable {failed : H} {s : Session H}

/-! ## C87 -/

/-- **C87.** The plugin handles what comes without a panic, and what it sends is allowed by the protocol: one `initialize`, nothing before its answer,
and of documents only those that are open, with versions that grow.  Missing: events of a view whose server has not answered yet, or answered with an error (`Settled`),
and a second view for such a server; see the refutations. -/
theorem C87_protocol_partial (h : Reach failed s) (e : Event H) (ho : s.Ok e) : ∃ s', s.step failed e = some s' :=
  (step_inv h.inv e ho).imp fun _ h => h.1

/-- **C87.** The document that a server has for a view is the text of the view, unless the server has said that it does not want to be told of changes. -/
theorem C87_text_partial (h : Reach failed s) {i uri : String} {c : Client} {v : Nat} {t : List Char} (hc : s.plugin.clients i = some c) (ho : c.opened v = some uri)
    (hk : c.sync ≠ some .none) (ht : s.texts v = some t) : ∃ version, (s.servers i).docs uri = some (t, version) := by
  have hk : c.syncKind ≠ .none := by
    unfold Client.syncKind
    cases hs : c.sync with
    | none => simp
    | some k => intro e; exact hk (by rw [hs]; exact congrArg some e)
  obtain ⟨_, t', doc, old, _, h2, h3, _, h5⟩ := (h.inv.client i c hc).opened v uri ho
  rw [ht] at h2
  cases h2
  exact ⟨old, by rw [h3, h5 hk]⟩

/-- **C87.** A view goes to the server of its workspace.  Without a workspace it goes to the one for single files, if its language supports that; views of no known
language, and others, go to none, and nothing is sent for them. -/
theorem C87_server_partial (p : LspPlugin H) (n : NewView) {language : String} (hl : n.language = some language) :
    (∀ root, n.root = some root → (p.newView n).1.info n.view = some (0, root) ∧ ∀ m ∈ (p.newView n).2.sent, m.1 = root) ∧
    (n.root = none → n.singleFile = true → (p.newView n).1.info n.view = some (0, "generic") ∧ ∀ m ∈ (p.newView n).2.sent, m.1 = "generic") ∧
    (n.root = none → n.singleFile = false → (p.newView n).1.info = p.info ∧ (p.newView n).1.clients = p.clients ∧ (p.newView n).2.sent = []) := by
  refine ⟨fun root hr => ?_, fun hr hf => ?_, fun hr hf => ?_⟩
  · simp only [LspPlugin.newView, hl, NewView.identifier, hr, Option.some_or]
    split <;> simp [setAt]
  · simp only [LspPlugin.newView, hl, NewView.identifier, hr, hf, Option.none_or, if_true]
    split <;> simp [setAt]
  · simp [LspPlugin.newView, hl, NewView.identifier, hr, hf]

/-- **C87.** A server has the documents of open views only, each for one view. -/
theorem C87_documents_partial (h : Reach failed s) {i uri : String} (hd : (s.servers i).docs uri ≠ none) :
    ∃ c v, s.plugin.clients i = some c ∧ c.opened v = some uri ∧ (s.texts v).isSome ∧ ∀ w, c.opened w = some uri → w = v := by
  cases hc : s.plugin.clients i with
  | none => rw [h.inv.noClient i hc] at hd; exact absurd rfl hd
  | some c =>
    have ci := h.inv.client i c hc
    obtain ⟨v, hv⟩ := ci.docs uri hd
    obtain ⟨_, t, _, _, _, h2, _⟩ := ci.opened v uri hv
    exact ⟨c, v, rfl, hv, by rw [h2]; rfl, fun w hw => ci.inj w v uri hw hv⟩

/-- **C87.** A hover is shown in the view that asked for it, under the number it was asked with.  Missing: views closed while a hover is under way. -/
theorem C87_hover_partial (h : Reach failed s) {v request : Nat} {x : H} (hs : (v, request, x) ∈ s.shown) : (v, request) ∈ s.asked := h.inv.shown v request x hs

/-- **C87.** No result is lost on its way: there is an idle call for each. -/
theorem C87_waiting_partial (h : Reach failed s) : s.idles.length = s.plugin.results.length := h.inv.queue

/-- **C87.** The changes that the plugin makes are such as the other theorems ask for, if the server takes whole documents or no changes. -/
theorem C87_changes_partial {source : Source} {size : Nat} {r : Rope} {cache : ChunkCache} (hr : Reading source size r cache.rev) (ha : Answers source size cache.rev r)
    (hc : Coherent cache r.text) (delta : Option (Delta UInt8)) {v : Nat} {text old : List Char} (ht : r.text = enc text) (hs : s.Settled v) (ho : s.texts v = some old)
    (hk : ∀ version i c, s.plugin.info v = some (version, i) → s.plugin.clients i = some c → c.syncKind ≠ .incremental) :
    s.Ok (.update v (fun k => (changeForSyncKind source size k delta cache).map (·.2)) text) := by
  refine ⟨hs, old, ho, fun version i c h1 h2 => ⟨fun _ => rfl, fun hn => ?_⟩⟩
  have hf : c.syncKind = .full := by
    have := hk version i c h1 h2
    cases he : c.syncKind <;> simp_all
  obtain ⟨c', l, e, -, new, hnew, hap⟩ := C74_full hr ha hc delta old
  refine ⟨l, by rw [hf]; show Option.map _ (changeForSyncKind source size .full delta cache) = _; rw [e]; rfl, ?_⟩
  rw [ht] at hnew
  rw [enc_inj hnew]
  exact hap

/-! ## A session -/

/-- A file of its own, without a workspace. -/
def single (v : Nat) (uri language text : String) : NewView := ⟨v, uri, some language, none, true, enc text.toList⟩

example : ((({} : LspPlugin Unit).newView { single 0 "file:///w/a.rs" "rust" "fn" with root := some "w" }).2.sent) = [("w", .initialize 1)] := rfl

/-- The whole text as the change, for each kind of server. -/
def wholeText (text : String) : SyncKind → Option (Option (List Change)) := fun _ => some (some [⟨none, none, enc text.toList⟩])

/-- Some events, one after the other. -/
def runAll (s : Session Unit) : List (Event Unit) → Option (Session Unit)
  | [] => some s
  | e :: rest => do runAll (← s.step () e) rest

/-- A document is opened and changed. -/
def session : Session Unit :=
  (runAll {} [.newView (single 0 "file:///a.rs" "rust" "fn") "fn".toList, .answer "generic" 1 (.capabilities (some .full)), .update 0 (wholeText "fn é") "fn é".toList]).getD {}

/-- The assumptions of these theorems hold of a session in which a document is opened and changed. -/
example : Reach () session ∧ (session.servers "generic").docs "file:///a.rs" = some ("fn é".toList, 1) := by
  refine ⟨?_, by decide +kernel⟩
  refine .step (.step (.step .start (e := .newView (single 0 "file:///a.rs" "rust" "fn") "fn".toList) ?_ rfl)
    (e := .answer "generic" 1 (.capabilities (some .full))) ?_ rfl) (e := .update 0 (wholeText "fn é") "fn é".toList) ?_ rfl
  · exact ⟨by simp, rfl, fun i c _ h => by cases h⟩
  · exact ⟨_, _, rfl, rfl, trivial⟩
  · refine ⟨fun version i hi => ?_, _, rfl, fun version i c hi hc => ?_⟩
    · cases hi; exact ⟨_, _, rfl, rfl⟩
    · cases hi; cases hc
      exact ⟨fun h => by simp [Client.syncKind] at h, fun _ => ⟨_, rfl, .cons ⟨_, rfl, rfl⟩ .nil⟩⟩

/-! ## What does not hold -/

/-- The plugin after its first view, whose server has not answered. -/
def waiting : LspPlugin Unit := (({} : LspPlugin Unit).newView (single 0 "file:///a.rs" "rust" "fn")).1

/-- **C87.** A document that is changed, saved or closed before the server has answered `initialize` makes the plugin panic; so does a hover. -/
theorem C87_early_refuted : (waiting.update 0 (wholeText "fn ")).isNone ∧ (waiting.didSave 0).isNone ∧ (waiting.didClose 0).isNone ∧
    (waiting.getHover () 0 7 (some ⟨0, 0⟩)).isNone := by decide +kernel

/-- **C87.** The same if the server could not initialise. -/
theorem C87_error_refuted : ∃ p, (waiting.answer "generic" 1 (.error ())).map (·.1) = some p ∧ (p.update 0 (wholeText "fn ")).isNone :=
  ⟨_, rfl, by decide +kernel⟩

/-- **C87.** If a second view comes before the answer, the server is asked to initialise a second time. -/
theorem C87_twice_refuted : (({} : LspPlugin Unit).newView (single 0 "file:///a.rs" "rust" "fn")).2.sent = [("generic", .initialize 1)] ∧
    (waiting.newView (single 1 "file:///b.rs" "rust" "")).2.sent = [("generic", .initialize 2)] := ⟨rfl, rfl⟩

/-- The plugin after the answer. -/
def answered : LspPlugin Unit := ((waiting.answer "generic" 1 (.capabilities (some .full))).map (·.1)).getD {}

/-- **C87.** A document of another language is opened at the server that is there, as one of the language of that server. -/
theorem C87_language_refuted : (answered.newView (single 1 "file:///b.py" "python" "")).2.sent = [("generic", .didOpen "file:///b.py" "rust" 0 [])] := rfl

/-- **C87.** If a view is closed while its hover waits to be shown, the next view that asked is shown that hover. -/
theorem C87_hover_refuted : ∃ s, runAll {} [.newView (single 0 "file:///a.rs" "rust" "fn") "fn".toList, .answer "generic" 1 (.capabilities (some .full)),
      .newView (single 1 "file:///b.rs" "rust" "") [], .hover 0 7 (some ⟨0, 0⟩), .hover 1 8 (some ⟨0, 0⟩),
      .answer "generic" 2 (.hover ()), .answer "generic" 3 (.hover ()), .close 0, .idle, .idle] = some s ∧
    s.shown = [(1, 7, ())] ∧ s.asked = [(1, 8), (0, 7)] ∧ s.idles = [] ∧ s.plugin.results.length = 1 :=
  ⟨_, rfl, by decide +kernel⟩

/-- **C87.** An answer to a request that was not made makes the plugin panic. -/
theorem C87_answer_refuted : (answered.answer "generic" 5 (.hover ())).isNone := by decide +kernel

end Xi.Lsp
