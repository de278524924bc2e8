import Verif.Props.Config
import Verif.Spec.ConfigFiles

/-!
# C100: the settings are those of the files
-/

namespace Xi

open Config

set_option linter.unusedSectionVars false

variable {V : Type} [DecidableEq V]

namespace Config

/-! ## Names -/

theorem takeWhile_append_dot {e b : List Char} (h : '.' ∉ e) : (e ++ '.' :: b).takeWhile (· ≠ '.') = e := by
  induction e with
  | nil => simp
  | cons c e ih =>
    simp only [List.mem_cons, not_or] at h
    rw [List.cons_append, List.takeWhile_cons, if_pos (by simpa using fun hc => h.1 hc.symm), ih h.2]

theorem stemExt_dot {b e : List Char} (hb : b ≠ []) (he : '.' ∉ e) (h : b ++ '.' :: e ≠ ['.', '.']) : stemExt (b ++ '.' :: e) = (b, some e) := by
  have h1 : ((b ++ '.' :: e).reverse.takeWhile (· ≠ '.')).reverse = e := by
    rw [List.reverse_append, List.reverse_cons, List.append_assoc, List.singleton_append, takeWhile_append_dot (by simpa using he), List.reverse_reverse]
  unfold stemExt
  rw [h1]
  have h2 : (b ++ '.' :: e).take ((b ++ '.' :: e).length - e.length - 1) = b := by
    rw [show (b ++ '.' :: e).length - e.length - 1 = b.length by simp; omega, List.take_left']
    rfl
  dsimp only
  rw [h2, if_neg h, if_neg (by simp; omega), if_neg hb]

theorem stemExt_some {n b e : List Char} (h : stemExt n = (b, some e)) : n = b ++ '.' :: e ∧ b ≠ [] := by
  unfold stemExt at h
  dsimp only at h
  split at h
  · cases h
  split at h
  · cases h
  rename_i hl
  split at h
  · cases h
  rename_i hs
  simp only [Prod.mk.injEq, Option.some.injEq] at h
  obtain ⟨h1, h2⟩ := h
  refine ⟨?_, h1 ▸ hs⟩
  have hd := List.takeWhile_append_dropWhile (p := (fun c : Char => decide (c ≠ '.'))) (l := n.reverse)
  have h3 : n.reverse.takeWhile (fun c => decide (c ≠ '.')) = e.reverse := by rw [← h2, List.reverse_reverse]
  rw [h3] at hd
  cases hr : n.reverse.dropWhile (fun c : Char => decide (c ≠ '.')) with
  | nil =>
    rw [hr, List.append_nil] at hd
    exact absurd (by rw [h2, ← List.length_reverse (as := e), hd, List.length_reverse]) hl
  | cons c r =>
    have hc : c = '.' := by
      have := List.head?_dropWhile_not (p := (fun c : Char => decide (c ≠ '.'))) (l := n.reverse)
      rw [hr] at this
      simpa using this
    subst hc
    rw [hr] at hd
    have hn : n = r.reverse ++ '.' :: e := by
      have := congrArg List.reverse hd
      simpa using this.symm
    have : b = r.reverse := by
      rw [← h1, h2, hn, show (r.reverse ++ '.' :: e).length - e.length - 1 = r.reverse.length by simp; omega, List.take_left' rfl]
    rw [this]; exact hn

theorem xiconfig_home {b : List Char} (hb : b ≠ []) : stemExt (b ++ ".xiconfig".toList) = (b, some "xiconfig".toList) := by
  have hx : ".xiconfig".toList = '.' :: "xiconfig".toList := by decide
  have he : '.' ∉ "xiconfig".toList := by decide
  have hl : "xiconfig".toList ≠ [] := by decide
  rw [hx]
  generalize "xiconfig".toList = e at he hl
  refine stemExt_dot hb he fun h => ?_
  cases b with
  | nil => exact hb rfl
  | cons c b =>
    cases b with
    | nil =>
      cases e with
      | nil => exact hl rfl
      | cons x e => simp at h
    | cons c' b => simp at h

/-- The domain of a path is the one whose file has its name. -/
theorem domain_home {m : Manager V} {w : World V} (h : Refines m w) {p : FilePath} {d : Domain} (hd : HasFile w d) (hp : homeName d = some p.name) : m.domainForPath p = some d := by
  unfold Manager.domainForPath
  cases d with
  | general =>
    rw [← Option.some.inj hp]
    rw [show "preferences.xiconfig".toList = "preferences".toList ++ ".xiconfig".toList by decide, xiconfig_home (by decide)]
    rfl
  | language n =>
    rw [← Option.some.inj hp, xiconfig_home (by simpa using hd.2.2.1)]
    simp only [ne_eq, not_true_eq_false, if_false, String.ofList_toList, if_neg hd.2.1]
    have := h.base.langs n
    cases hl : m.languages.named.lookup n with
    | none => rw [hl] at this; rw [HasFile, this] at hd; simp at hd
    | some l => rw [Option.map_some, h.base.wf.names n l hl]
  | userOverride => exact hd.elim
  | sysOverride => exact hd.elim

theorem domain_name {m : Manager V} {w : World V} (h : Refines m w) {p : FilePath} {d : Domain} (hd : m.domainForPath p = some d) : homeName d = some p.name := by
  unfold Manager.domainForPath at hd
  split at hd
  · cases hd
  rename_i he
  obtain ⟨hn, -⟩ := stemExt_some (n := p.name) (b := (stemExt p.name).1) (e := "xiconfig".toList) (by
    rw [Classical.not_not] at he
    rw [← he])
  dsimp only at hd
  split at hd
  · rename_i hs
    cases hd
    rw [hn, homeName, ← String.toList_ofList (l := (stemExt p.name).1), hs]
    decide +kernel
  · obtain ⟨l, hl, rfl⟩ := Option.map_eq_some_iff.mp hd
    rw [homeName, h.base.wf.names _ l hl, String.toList_ofList]
    conv => rhs; rw [hn]
    rfl

/-! ## One file -/

theorem Writable.noNull {σ : Schema V} {t : Table V} (h : Writable σ t) : NoNull σ (t.lookup ·) := fun k hk hn => (h.2 k hk _ hn).1 rfl

theorem Writable.accepts {σ : Schema V} {w : World V} (hv : w.Valid σ) {t : Table V} (h : Writable σ t) : w.Accepts σ (t.lookup ·) := by
  intro k hk
  cases ht : t.lookup k with
  | none =>
    dsimp only
    rw [ht]
    exact hv.defaults k hk
  | some v =>
    obtain ⟨h1, h2⟩ := h.2 k hk v ht
    exact ⟨v, by dsimp only; rw [ht, Option.filter_some, if_pos (by simpa using h1), Option.some_or], h2⟩

/-- A table is set. -/
theorem setConfig_good {σ : Schema V} {m : Manager V} {w : World V} (h : Refines m w) (hv : w.Valid σ) (d : Domain) {t : Table V} (ht : Writable σ t) :
    ∃ m' out, m.setConfig σ d t = some (m', [.changes out]) ∧ Refines m' (w.setUser d (t.lookup ·)) ∧ (w.setUser d (t.lookup ·)).Valid σ := by
  obtain ⟨⟨m', r⟩, hs⟩ := (C75_set_no_panic (dom := d) ht.1 h hv ht.noNull).1
  rcases C75_set_partial ht.1 h hs with ⟨ha, -⟩ | ⟨ha, out, rfl, h', -⟩
  · exact absurd (ht.accepts hv) ha
  · exact ⟨m', out, by rw [Manager.setConfig, hs]; rfl, h', (C75_set_no_panic (dom := d) ht.1 h hv ht.noNull).2 ha⟩

/-- The settings after one file, with the path `p`, has been looked at. -/
structure After (σ : Schema V) (m : Manager V) (w : World V) (p : FilePath) (new : Settings V → Settings V) (m' : Manager V) (w' : World V) : Prop where
  refines : Refines m' w'
  valid : w'.Valid σ
  defaults : w'.defaults = w.defaults
  langs : w'.langs = w.langs
  tags : w'.tags = w.tags
  home : ∀ d, HasFile w d → homeName d = some p.name → w'.user d = new (w.user d)
  others : ∀ d, homeName d ≠ some p.name → w'.user d = w.user d

theorem setConfig_after {σ : Schema V} {m : Manager V} {w : World V} (h : Refines m w) (hv : w.Valid σ) {p : FilePath} {d : Domain} (hd : m.domainForPath p = some d) {t : Table V} (ht : Writable σ t) :
    ∃ m' out w', m.setConfig σ d t = some (m', [.changes out]) ∧ After σ m w p (fun _ k => t.lookup k) m' w' := by
  obtain ⟨m', out, h1, h2, h3⟩ := setConfig_good h hv d ht
  refine ⟨m', out, _, h1, h2, h3, rfl, rfl, rfl, ?_, ?_⟩
  · intro d' hd' hn
    have := domain_home h hd' hn
    rw [hd] at this
    cases this
    simp [World.setUser]
  · intro d' hn
    have : d' ≠ d := by rintro rfl; exact hn (domain_name h hd)
    simp [World.setUser, this]

theorem loadFile_after {σ : Schema V} {files : Files V} {m : Manager V} {w : World V} (h : Refines m w) (hv : w.Valid σ) (p : FilePath)
    (hg : ∀ t, files p = some (some t) → Writable σ t) :
    ∃ m' r w', m.loadFile σ files p = some (m', r) ∧ After σ m w p (fun old => if (files p).join.isSome then settingsIn files p else old) m' w' := by
  unfold Manager.loadFile
  cases hd : m.domainForPath p with
  | none =>
    refine ⟨m, _, w, rfl, h, hv, rfl, rfl, rfl, ?_, fun _ _ => rfl⟩
    intro d hf hn
    rw [domain_home h hf hn] at hd
    cases hd
  | some d =>
    cases hj : (files p).join with
    | none =>
      exact ⟨m, _, w, rfl, h, hv, rfl, rfl, rfl, fun _ _ _ => by simp, fun _ _ => rfl⟩
    | some t =>
      obtain ⟨m', out, w', h1, h2⟩ := setConfig_after h hv hd (hg t (Option.join_eq_some_iff.mp hj))
      refine ⟨m', _, w', h1, h2.refines, h2.valid, h2.defaults, h2.langs, h2.tags, ?_, h2.others⟩
      intro d' hf hn
      rw [h2.home d' hf hn]
      funext k
      simp [settingsIn, hj]

theorem writable_nil (σ : Schema V) : Writable σ ([] : Table V) := ⟨List.nodup_nil, fun _ _ _ h => by simp at h⟩

theorem removeFile_after {σ : Schema V} {m : Manager V} {w : World V} (h : Refines m w) (hv : w.Valid σ) (p : FilePath) :
    ∃ m' r w', m.removeFile σ p = some (m', r) ∧ After σ m w p (fun _ _ => none) m' w' := by
  unfold Manager.removeFile
  cases hd : m.domainForPath p with
  | none =>
    refine ⟨m, _, w, rfl, h, hv, rfl, rfl, rfl, ?_, fun _ _ => rfl⟩
    intro d hf hn
    rw [domain_home h hf hn] at hd
    cases hd
  | some d =>
    obtain ⟨m', out, w', h1, h2⟩ := setConfig_after h hv hd (writable_nil σ)
    exact ⟨m', _, w', h1, h2⟩

/-! ## All of them -/

/-- What an event says about a file: it is there, it is gone. -/
def FileEvent.says (p : FilePath) : FileEvent → Option Bool
  | .written q => if q = p then some true else none
  | .removed q => if q = p then some false else none
  | .renamed old new => if new = p then some true else if old = p then some false else none
  | .other => none

theorem FileEvent.says_none {p : FilePath} {e : FileEvent} : e.says p = none ↔ ¬ e.About p := by
  cases e with
  | renamed old new =>
    simp only [says, About]
    split
    · simp [*]
    · split <;> simp [*]
  | _ => simp [says, About]

/-- What the last of the events says about a file. -/
def lastWord (p : FilePath) : List FileEvent → Option Bool
  | [] => none
  | e :: es => (lastWord p es).or (e.says p)

theorem lastWord_none {p : FilePath} : ∀ {es : List FileEvent}, lastWord p es = none ↔ ∀ e ∈ es, ¬ e.About p
  | [] => by simp [lastWord]
  | e :: es => by simp [lastWord, lastWord_none (es := es), FileEvent.says_none, and_comm]

theorem lastWord_append (p : FilePath) (e : FileEvent) : ∀ es : List FileEvent, lastWord p (es ++ [e]) = (e.says p).or (lastWord p es)
  | [] => by simp [lastWord]
  | e' :: es => by rw [List.cons_append, lastWord, lastWord_append p e es, lastWord, Option.or_assoc]

/-- The settings follow the files, apart from those there are still events about. -/
structure Follows (σ : Schema V) (dir : List String) (w0 : World V) (s : FileState V) (w : World V) : Prop where
  refines : Refines s.manager w
  valid : w.Valid σ
  defaults : w.defaults = w0.defaults
  langs : w.langs = w0.langs
  tags : w.tags = w0.tags
  rest : ∀ d, homeName d = none → w.user d = w0.user d
  good : ∀ p c, s.files p = some c → p.dir = dir ∧ ∃ t, c = some t ∧ Writable σ t
  inDir : ∀ e ∈ s.events, ∀ p, e.About p → p.dir = dir
  two : ∀ old new, FileEvent.renamed old new ∈ s.events → old ≠ new
  last : ∀ p, lastWord p s.events = none ∨ lastWord p s.events = some (s.files p).isSome
  told : ∀ d n, HasFile w0 d → homeName d = some n → lastWord ⟨dir, n⟩ s.events = none → w.user d = settingsIn s.files ⟨dir, n⟩

/-- What may be done: acceptable tables are written, all files are in the folder. -/
def FileStep.May (σ : Schema V) (dir : List String) : FileStep V → Prop
  | .write p t => p.dir = dir ∧ Writable σ t
  | .remove _ => True
  | .rename _ new => new.dir = dir
  | .handle => True

theorem HasFile.langs {w w0 : World V} (h : w.langs = w0.langs) {d : Domain} (hd : HasFile w0 d) : HasFile w d := by
  cases d with
  | language n => simpa [HasFile, h] using hd
  | _ => exact hd

theorem settingsIn_congr {f g : Files V} {p : FilePath} (h : f p = g p) : settingsIn f p = settingsIn g p := by
  funext k
  simp [settingsIn, h]

theorem step_write {σ : Schema V} {dir : List String} {w0 w : World V} {s : FileState V} (h : Follows σ dir w0 s w) {p : FilePath} {t : Table V} (hp : p.dir = dir) (ht : Writable σ t) :
    Follows σ dir w0 { s with files := fun q => if q = p then some (some t) else s.files q, events := s.events ++ [.written p] } w := by
  refine ⟨h.refines, h.valid, h.defaults, h.langs, h.tags, h.rest, ?_, ?_, ?_, ?_, ?_⟩
  · intro q c hc
    dsimp only at hc
    split at hc
    · rename_i hq; cases hc; exact ⟨hq ▸ hp, t, rfl, ht⟩
    · exact h.good q c hc
  · intro e he q hq
    rcases List.mem_append.mp he with he | he
    · exact h.inDir e he q hq
    · rw [List.mem_singleton.mp he] at hq; exact hq ▸ hp
  · intro a b he
    rcases List.mem_append.mp he with he | he
    · exact h.two a b he
    · simp at he
  · intro q
    dsimp only
    rw [lastWord_append, FileEvent.says]
    by_cases hq : p = q
    · subst hq; simp
    · rw [if_neg hq, if_neg (fun h => hq h.symm), Option.none_or]; exact h.last q
  · intro d n hd hn hw
    dsimp only at hw
    rw [lastWord_append, FileEvent.says] at hw
    have hq : p ≠ ⟨dir, n⟩ := by intro hq; rw [if_pos hq] at hw; simp at hw
    rw [if_neg hq, Option.none_or] at hw
    rw [h.told d n hd hn hw]
    exact settingsIn_congr (if_neg fun h => hq h.symm).symm

theorem step_remove {σ : Schema V} {dir : List String} {w0 w : World V} {s : FileState V} (h : Follows σ dir w0 s w) {p : FilePath} (hp : (s.files p).isSome) :
    Follows σ dir w0 { s with files := fun q => if q = p then none else s.files q, events := s.events ++ [.removed p] } w := by
  have hpd : p.dir = dir := by
    obtain ⟨c, hc⟩ := Option.isSome_iff_exists.mp hp
    exact (h.good p c hc).1
  refine ⟨h.refines, h.valid, h.defaults, h.langs, h.tags, h.rest, ?_, ?_, ?_, ?_, ?_⟩
  · intro q c hc
    dsimp only at hc
    split at hc
    · cases hc
    · exact h.good q c hc
  · intro e he q hq
    rcases List.mem_append.mp he with he | he
    · exact h.inDir e he q hq
    · rw [List.mem_singleton.mp he] at hq; exact hq ▸ hpd
  · intro a b he
    rcases List.mem_append.mp he with he | he
    · exact h.two a b he
    · simp at he
  · intro q
    dsimp only
    rw [lastWord_append, FileEvent.says]
    by_cases hq : p = q
    · subst hq; simp
    · rw [if_neg hq, if_neg (fun h => hq h.symm), Option.none_or]; exact h.last q
  · intro d n hd hn hw
    dsimp only at hw
    rw [lastWord_append, FileEvent.says] at hw
    have hq : p ≠ ⟨dir, n⟩ := by intro hq; rw [if_pos hq] at hw; simp at hw
    rw [if_neg hq, Option.none_or] at hw
    rw [h.told d n hd hn hw]
    exact settingsIn_congr (if_neg fun h => hq h.symm).symm

theorem step_rename {σ : Schema V} {dir : List String} {w0 w : World V} {s : FileState V} (h : Follows σ dir w0 s w) {old new : FilePath} (hp : (s.files old).isSome) (hne : old ≠ new) (hnew : new.dir = dir) :
    Follows σ dir w0 { s with files := fun q => if q = new then s.files old else if q = old then none else s.files q, events := s.events ++ [.renamed old new] } w := by
  have hpd : old.dir = dir := by
    obtain ⟨c, hc⟩ := Option.isSome_iff_exists.mp hp
    exact (h.good old c hc).1
  refine ⟨h.refines, h.valid, h.defaults, h.langs, h.tags, h.rest, ?_, ?_, ?_, ?_, ?_⟩
  · intro q c hc
    dsimp only at hc
    split at hc
    · rename_i hq; exact ⟨hq ▸ hnew, (h.good old c hc).2⟩
    · split at hc
      · cases hc
      · exact h.good q c hc
  · intro e he q hq
    rcases List.mem_append.mp he with he | he
    · exact h.inDir e he q hq
    · rw [List.mem_singleton.mp he] at hq
      rcases hq with rfl | rfl
      · exact hpd
      · exact hnew
  · intro a b he
    rcases List.mem_append.mp he with he | he
    · exact h.two a b he
    · simp at he; rw [he.1, he.2]; exact hne
  · intro q
    dsimp only
    rw [lastWord_append, FileEvent.says]
    by_cases hq : q = new
    · subst hq; simp [hp]
    · rw [if_neg (fun h => hq h.symm), if_neg hq]
      by_cases ho : q = old
      · subst ho; simp
      · rw [if_neg (fun h => ho h.symm), if_neg ho, Option.none_or]; exact h.last q
  · intro d n hd hn hw
    dsimp only at hw
    rw [lastWord_append, FileEvent.says] at hw
    have hq : new ≠ ⟨dir, n⟩ := by intro hq; rw [if_pos hq] at hw; simp at hw
    rw [if_neg hq] at hw
    have ho : old ≠ ⟨dir, n⟩ := by intro ho; rw [if_pos ho] at hw; simp at hw
    rw [if_neg ho, Option.none_or] at hw
    rw [h.told d n hd hn hw]
    refine settingsIn_congr ?_
    dsimp only
    rw [if_neg fun h => hq h.symm, if_neg fun h => ho h.symm]

theorem handled {σ : Schema V} {dir : List String} {w0 w w' : World V} {s : FileState V} (h : Follows σ dir w0 s w) {e : FileEvent} {es : List FileEvent} (hs : s.events = e :: es)
    {m' : Manager V} (hr : Refines m' w') (hv : w'.Valid σ) (hd : w'.defaults = w.defaults) (hl : w'.langs = w.langs) (ht : w'.tags = w.tags)
    (hrest : ∀ d, homeName d = none → w'.user d = w.user d)
    (ha : ∀ d n, HasFile w d → homeName d = some n → e.says ⟨dir, n⟩ = some (s.files ⟨dir, n⟩).isSome → w'.user d = settingsIn s.files ⟨dir, n⟩)
    (hb : ∀ d n, HasFile w d → homeName d = some n → e.says ⟨dir, n⟩ = none → w'.user d = w.user d) :
    Follows σ dir w0 { s with events := es, manager := m' } w' := by
  refine ⟨hr, hv, hd.trans h.defaults, hl.trans h.langs, ht.trans h.tags, fun d hd => (hrest d hd).trans (h.rest d hd), h.good, ?_, ?_, ?_, ?_⟩
  · intro e' he'
    exact h.inDir e' (by rw [hs]; exact List.mem_cons_of_mem _ he')
  · intro a b he'
    exact h.two a b (by rw [hs]; exact List.mem_cons_of_mem _ he')
  · intro q
    have := h.last q
    rw [hs, lastWord] at this
    cases hw : lastWord q es with
    | none => exact .inl rfl
    | some b =>
      rw [hw] at this
      rcases this with h | h
      · simp at h
      · exact .inr h
  · intro d n hf hn hw
    have hf' := HasFile.langs h.langs hf
    dsimp only at hw ⊢
    have hl := h.last ⟨dir, n⟩
    rw [hs, lastWord, hw, Option.none_or] at hl
    rcases hl with hl | hl
    · rw [hb d n hf' hn hl]
      exact h.told d n hf hn (by rw [hs, lastWord, hw, hl]; rfl)
    · exact ha d n hf' hn hl

theorem settingsIn_none {files : Files V} {p : FilePath} (h : (files p).isSome = false) : settingsIn files p = fun _ => none := by
  funext k
  have : files p = none := by simpa using h
  simp [settingsIn, this]

theorem step_handle {σ : Schema V} {dir : List String} {w0 w : World V} {s : FileState V} (h : Follows σ dir w0 s w) :
    ∃ s' w', s.step σ .handle = some s' ∧ s'.files = s.files ∧ s'.events = s.events.tail ∧ Follows σ dir w0 s' w' := by
  unfold FileState.step
  cases hs : s.events with
  | nil => exact ⟨s, w, by simp, rfl, by rw [hs]; rfl, h⟩
  | cons e es =>
    have hgood : ∀ p t, s.files p = some (some t) → Writable σ t := fun p t hp => by
      obtain ⟨-, t', h1, h2⟩ := h.good p _ hp
      cases h1; exact h2
    have hjoin : ∀ p, (s.files p).join.isSome = (s.files p).isSome := fun p => by
      cases hp : s.files p with
      | none => rfl
      | some c => obtain ⟨-, t', rfl, -⟩ := h.good p _ hp; rfl
    have hdir : ∀ p, e.About p → p.dir = dir := h.inDir e (by rw [hs]; exact List.mem_cons_self ..)
    have key : ∀ {p : FilePath} {n : List Char}, p.dir = dir → (some n = some p.name ↔ p = ⟨dir, n⟩) := by
      rintro ⟨a, b⟩ n rfl
      simp [eq_comm]
    suffices ∃ m' r w', s.manager.handleFileEvent σ s.files e = some (m', r) ∧ Follows σ dir w0 { s with events := es, manager := m' } w' by
      obtain ⟨m', r, w', h1, h2⟩ := this
      exact ⟨{ s with events := es, manager := m' }, w', by simp [h1], rfl, rfl, h2⟩
    cases e with
    | other => exact ⟨_, _, w, rfl, handled h hs h.refines h.valid rfl rfl rfl (fun _ _ => rfl) (fun _ _ _ _ hc => by simp [FileEvent.says] at hc) (fun _ _ _ _ _ => rfl)⟩
    | written p =>
      obtain ⟨m', r, w', h1, h2⟩ := loadFile_after (files := s.files) h.refines h.valid p (hgood p)
      have hp : p.dir = dir := hdir p rfl
      refine ⟨m', r, w', h1, handled h hs h2.refines h2.valid h2.defaults h2.langs h2.tags (fun d hd => h2.others d (by simp [hd])) ?_ ?_⟩
      · intro d n hf hn hsay
        simp only [FileEvent.says] at hsay
        split at hsay
        · rename_i hq
          rw [h2.home d hf (by rw [hn]; exact (key hp).mpr hq), hjoin, hq, ← Option.some.inj hsay]
          rfl
        · cases hsay
      · intro d n hf hn hsay
        refine h2.others d ?_
        rw [hn, Ne, key hp]
        intro hq
        simp [FileEvent.says, hq] at hsay
    | removed p =>
      have hp : p.dir = dir := hdir p rfl
      unfold Manager.handleFileEvent
      by_cases hex : (s.files p).isNone = true
      · dsimp only
        rw [if_pos hex]
        obtain ⟨m', r, w', h1, h2⟩ := removeFile_after h.refines h.valid p
        refine ⟨m', r, w', h1, handled h hs h2.refines h2.valid h2.defaults h2.langs h2.tags (fun d hd => h2.others d (by simp [hd])) ?_ ?_⟩
        · intro d n hf hn hsay
          simp only [FileEvent.says] at hsay
          split at hsay
          · rename_i hq
            rw [h2.home d hf (by rw [hn]; exact (key hp).mpr hq), settingsIn_none (Option.some.inj hsay).symm]
          · cases hsay
        · intro d n hf hn hsay
          refine h2.others d ?_
          rw [hn, Ne, key hp]
          intro hq
          simp [FileEvent.says, hq] at hsay
      · dsimp only
        rw [if_neg hex]
        refine ⟨_, _, w, rfl, handled h hs h.refines h.valid rfl rfl rfl (fun _ _ => rfl) ?_ (fun _ _ _ _ _ => rfl)⟩
        intro d n hf hn hsay
        simp only [FileEvent.says] at hsay
        split at hsay
        · rename_i hq
          rw [← hq] at hsay
          have := (Option.some.inj hsay).symm
          simp at this hex
          exact absurd this hex
        · cases hsay
    | renamed old new =>
      have ho : old.dir = dir := hdir old (.inl rfl)
      have hn' : new.dir = dir := hdir new (.inr rfl)
      have hne : old ≠ new := h.two old new (by rw [hs]; exact List.mem_cons_self ..)
      obtain ⟨m1, r1, w1, h1, h2⟩ := removeFile_after h.refines h.valid old
      obtain ⟨m2, r2, w2, h3, h4⟩ := loadFile_after (files := s.files) h2.refines h2.valid new (hgood new)
      refine ⟨m2, r1 ++ r2, w2, by rw [Manager.handleFileEvent, h1]; simp [h3], handled h hs h4.refines h4.valid (h4.defaults.trans h2.defaults) (h4.langs.trans h2.langs) (h4.tags.trans h2.tags)
        (fun d hd => (h4.others d (by simp [hd])).trans (h2.others d (by simp [hd]))) ?_ ?_⟩
      · intro d n hf hn hsay
        simp only [FileEvent.says] at hsay
        split at hsay
        · rename_i hq
          rw [h4.home d (HasFile.langs h2.langs hf) (by rw [hn]; exact (key hn').mpr hq), hjoin, hq, ← Option.some.inj hsay]
          rfl
        · rename_i hq
          split at hsay
          · rename_i hq2
            rw [h4.others d (by rw [hn, Ne, key hn']; exact hq), h2.home d hf (by rw [hn]; exact (key ho).mpr hq2), settingsIn_none (Option.some.inj hsay).symm]
          · cases hsay
      · intro d n hf hn hsay
        simp only [FileEvent.says] at hsay
        split at hsay
        · cases hsay
        · rename_i hq
          split at hsay
          · cases hsay
          · rename_i hq2
            rw [h4.others d (by rw [hn, Ne, key hn']; exact hq), h2.others d (by rw [hn, Ne, key ho]; exact hq2)]

theorem step_follows {σ : Schema V} {dir : List String} {w0 w : World V} {s : FileState V} (h : Follows σ dir w0 s w) (step : FileStep V) (hm : step.May σ dir) :
    ∃ s' w', s.step σ step = some s' ∧ Follows σ dir w0 s' w' := by
  cases step with
  | write p t => exact ⟨_, w, rfl, step_write h hm.1 hm.2⟩
  | remove p =>
    unfold FileState.step
    by_cases hp : (s.files p).isSome = true
    · simp only [if_pos hp]; exact ⟨_, w, rfl, step_remove h hp⟩
    · simp only [if_neg hp]; exact ⟨_, w, rfl, h⟩
  | rename old new =>
    unfold FileState.step
    by_cases hp : (s.files old).isSome = true ∧ old ≠ new
    · simp only [if_pos hp]; exact ⟨_, w, rfl, step_rename h hp.1 hp.2 hm⟩
    · simp only [if_neg hp]; exact ⟨_, w, rfl, h⟩
  | handle =>
    obtain ⟨s', w', h1, -, -, h2⟩ := step_handle h
    exact ⟨s', w', h1, h2⟩

theorem steps_follow {σ : Schema V} {dir : List String} {w0 : World V} : ∀ (steps : List (FileStep V)) {w : World V} {s : FileState V}, Follows σ dir w0 s w → (∀ step ∈ steps, step.May σ dir) →
    ∃ s' w', steps.foldlM (FileState.step σ) s = some s' ∧ Follows σ dir w0 s' w'
  | [], w, s, h, _ => ⟨s, w, rfl, h⟩
  | step :: steps, w, s, h, hm => by
    obtain ⟨s1, w1, h1, h2⟩ := step_follows h step (hm step (List.mem_cons_self ..))
    obtain ⟨s2, w2, h3, h4⟩ := steps_follow steps h2 (fun x hx => hm x (List.mem_cons_of_mem _ hx))
    exact ⟨s2, w2, by rw [List.foldlM_cons, h1]; exact h3, h4⟩

end Config

/-- **C100 (partial).** The settings follow the files.  However the files of the settings' folder are written, removed and given other names, and
however late the editor hears of it, it does not panic, and what the user has set in a domain is what is in the file of the domain, as soon as there is
no event about this file left; nothing is set if there is no file.  All else stays.  What is missing: tables that are not acceptable, files in folders
further down. -/
theorem C100_follow_partial {σ : Schema V} {dir : List String} {w : World V} {s : FileState V} (hr : Refines s.manager w) (hv : w.Valid σ) (he : s.events = [])
    (hf : ∀ p c, s.files p = some c → p.dir = dir ∧ ∃ t, c = some t ∧ Writable σ t)
    (hu : ∀ d n, HasFile w d → homeName d = some n → w.user d = settingsIn s.files ⟨dir, n⟩)
    (steps : List (FileStep V)) (hm : ∀ step ∈ steps, step.May σ dir) :
    ∃ s' w', steps.foldlM (FileState.step σ) s = some s' ∧ Refines s'.manager w' ∧ w'.Valid σ ∧
      w'.defaults = w.defaults ∧ w'.langs = w.langs ∧ w'.tags = w.tags ∧ (∀ d, homeName d = none → w'.user d = w.user d) ∧
      ∀ d n, HasFile w d → homeName d = some n → (∀ e ∈ s'.events, ¬ e.About ⟨dir, n⟩) → w'.user d = settingsIn s'.files ⟨dir, n⟩ := by
  obtain ⟨s', w', h1, h2⟩ := steps_follow (w0 := w) steps (w := w) (s := s)
    ⟨hr, hv, rfl, rfl, rfl, fun _ _ => rfl, hf, by simp [he], by simp [he], by simp [he, lastWord], fun d n h1 h2 _ => hu d n h1 h2⟩ hm
  exact ⟨s', w', h1, h2.refines, h2.valid, h2.defaults, h2.langs, h2.tags, h2.rest, fun d n hd hn ha => h2.told d n hd hn (lastWord_none.mpr ha)⟩

/-- **C100.** A file that is no file of settings, or cannot be read, or is not acceptable, makes a message for the user and changes nothing. -/
theorem C100_bad {σ : Schema V} {files : Files V} {m : Manager V} {w : World V} (h : Refines m w) (p : FilePath)
    (hp : (p.name ≠ "preferences.xiconfig".toList ∧ ∀ n, (w.langs n).isSome = true → p.name ≠ n.toList ++ ".xiconfig".toList) ∨ (files p).join = none ∨
      ∃ t, files p = some (some t) ∧ (t.map (·.1)).Nodup ∧ ¬ w.Accepts σ (t.lookup ·)) :
    ∃ r, m.loadFile σ files p = some (m, r) ∧ r matches [.alert] := by
  unfold Manager.loadFile
  cases hd : m.domainForPath p with
  | none => exact ⟨_, rfl, rfl⟩
  | some d =>
    rcases hp with ⟨hp1, hp2⟩ | hp | ⟨t, hp, ht, ha⟩
    · have hname := domain_name h hd
      unfold Manager.domainForPath at hd
      split at hd
      · cases hd
      dsimp only at hd
      split at hd
      · cases hd
        exact absurd (Option.some.inj hname).symm hp1
      · obtain ⟨l, hl, rfl⟩ := Option.map_eq_some_iff.mp hd
        refine absurd (Option.some.inj hname).symm (hp2 l.name ?_)
        rw [h.base.langs, h.base.wf.names _ l hl, hl]
        rfl
    · rw [hp]; exact ⟨_, rfl, rfl⟩
    · obtain ⟨b, hb, hacc⟩ := h.base.tables.check (σ := σ) ht
      have : b = false := by
        cases b with
        | false => rfl
        | true => exact absurd (hacc.mp rfl) ha
      subst this
      have hset : m.setUserConfig σ d t = some (m, none) := by rw [Manager.setUserConfig, hb]; rfl
      rw [hp, show (some (some t) : Option (Option (Table V))).join = some t from rfl]
      exact ⟨[.alert], by simp [Manager.setConfig, hset], rfl⟩

/-- Names without a dot, other than one at the start, have no extension. -/
theorem Config.stemExt_plain {n : List Char} (h : '.' ∉ n.tail) : stemExt n = (n, none) := by
  cases hs : stemExt n with
  | mk b x =>
    cases x with
    | some e =>
      obtain ⟨h1, h2⟩ := stemExt_some hs
      rw [h1] at h
      cases b with
      | nil => exact absurd rfl h2
      | cons c b => simp at h
    | none =>
      have : b = n := by
        unfold stemExt at hs
        dsimp only at hs
        split at hs
        · cases hs; rfl
        split at hs
        · cases hs; rfl
        split at hs
        · cases hs; rfl
        · cases hs
      rw [this]

/-- At the start the file of a language is looked for under the right name, if there is no dot in its name. -/
theorem Config.configPath_plain (dir : List String) {n : String} (h : '.' ∉ n.toList.tail) : configPath dir (.language n) = ⟨dir, n.toList ++ ".xiconfig".toList⟩ := by
  have hx : ".xiconfig".toList = '.' :: "xiconfig".toList := by decide
  unfold configPath withExtension Domain.fileStem
  dsimp only
  rw [stemExt_plain h, hx]

/-- **C100 (partial).** After the start the settings are those of the files.  What is missing: names of languages with a dot in them,
for which it is false (`C100_dot_refuted`), and the language `preferences` (`C100_preferences_refuted`). -/
theorem C100_start_partial {σ : Schema V} (files : Files V) (dir : List String) (defaults : Table V) (defs : List (LanguageDef V))
    (hv : (World.new (defaults.lookup ·)).Valid σ) (hd : ∀ d ∈ defs, σ.Good ((d.defaults.getD []).lookup ·))
    (hn : ∀ d ∈ defs, '.' ∉ d.name.toList.tail)
    (hf : ∀ p c, files p = some c → ∃ t, c = some t ∧ Writable σ t) :
    ∃ m w, (Manager.new defaults).finishSetup σ files dir defs = some m ∧ Refines m w ∧ w.Valid σ ∧ w.defaults = (defaults.lookup ·) ∧
      (∀ n, (w.langs n).isSome = true ↔ ∃ d ∈ defs, d.name = n) ∧
      ∀ d n, HasFile w d → homeName d = some n → w.user d = settingsIn files ⟨dir, n⟩ := by
  have hj : ∀ p t, (files p).join = some t → Writable σ t := fun p t hp => by
    obtain ⟨t', h1, h2⟩ := hf p _ (Option.join_eq_some_iff.mp hp)
    cases h1; exact h2
  -- the general file
  obtain ⟨m1, w1, h1, hr1, hv1, hdef1, hlang1, hg1, ho1⟩ : ∃ m1 w1, (if (files ⟨dir, "preferences.xiconfig".toList⟩).isSome then
        ((Manager.new defaults).loadFile σ files ⟨dir, "preferences.xiconfig".toList⟩).map (·.1) else some (Manager.new defaults)) = some m1 ∧
      Refines m1 w1 ∧ w1.Valid σ ∧ w1.defaults = (defaults.lookup ·) ∧ w1.langs = (fun _ => none) ∧
      w1.user .general = settingsIn files ⟨dir, "preferences.xiconfig".toList⟩ ∧ ∀ n, w1.user (.language n) = fun _ => none := by
    generalize hp : (⟨dir, "preferences.xiconfig".toList⟩ : FilePath) = p
    have hpn : p.name = "preferences.xiconfig".toList := by rw [← hp]
    by_cases hex : (files p).isSome = true
    · rw [if_pos hex]
      obtain ⟨m', r, w', h1, h2⟩ := loadFile_after (files := files) (C75_new defaults) hv p (fun t ht => hj p t (by rw [ht]; rfl))
      refine ⟨m', w', by rw [h1]; rfl, h2.refines, h2.valid, h2.defaults, h2.langs, ?_, ?_⟩
      · rw [h2.home .general trivial (by rw [hpn]; rfl)]
        obtain ⟨c, hc⟩ := Option.isSome_iff_exists.mp hex
        obtain ⟨t, rfl, -⟩ := hf p c hc
        rw [hc]; rfl
      · intro n
        by_cases hpre : n = "preferences"
        · subst hpre
          -- the general domain is the one that is set
          have hdom := domain_home (C75_new defaults) (w := World.new (defaults.lookup ·)) (p := p) (d := .general) trivial (by rw [hpn]; rfl)
          rw [Manager.loadFile, hdom] at h1
          dsimp only at h1
          obtain ⟨c, hc⟩ := Option.isSome_iff_exists.mp hex
          obtain ⟨t, rfl, ht⟩ := hf p c hc
          rw [hc] at h1
          obtain ⟨m2, out, h3, h4, -⟩ := setConfig_good (C75_new defaults) hv .general ht
          rw [show (some (some t) : Option (Option (Table V))).join = some t from rfl] at h1
          dsimp only at h1
          rw [h3] at h1
          cases h1
          funext k
          rw [← h2.refines.base.tables.user, h4.base.tables.user]
          rfl
        · rw [h2.others (.language n) (by
            rw [hpn, homeName]
            intro hc
            have hx : "preferences.xiconfig".toList = "preferences".toList ++ ".xiconfig".toList := by decide +kernel
            rw [hx, Option.some.injEq] at hc
            exact hpre (by
              have := List.append_cancel_right hc
              rw [← String.ofList_toList (s := n), this, String.ofList_toList]))]
          rfl
    · rw [if_neg hex]
      refine ⟨_, _, rfl, C75_new defaults, hv, rfl, rfl, ?_, fun _ => rfl⟩
      rw [settingsIn_none (by simpa using hex)]
      rfl
  -- the languages
  have hload : ∀ n t, loadUserConfigFile files dir (.language n) = some t → Writable σ t := fun n t ht => hj _ t ht
  obtain ⟨⟨m2, h2⟩, hv2⟩ := C75_languages_no_panic_partial (files := fun n => loadUserConfigFile files dir (.language n)) (defs := defs) (fun n t ht => ⟨(hload n t ht).1, (hload n t ht).noNull⟩) hr1 hv1 hd
  have hr2 := C75_languages (fun n t ht => (hload n t ht).1) hr1 h2
  have hknown : ∀ n, ((w1.setLanguages σ defs fun n => (loadUserConfigFile files dir (.language n)).map fun t k => t.lookup k).langs n).isSome = true ↔ ∃ d ∈ defs, d.name = n := by
    intro n
    simp [World.setLanguages]
  refine ⟨m2, _, ?_, hr2, hv2, hdef1, hknown, ?_⟩
  · unfold Manager.finishSetup
    dsimp only
    split at h1
    · rename_i hc
      rw [if_pos hc, h1]
      exact h2
    · rename_i hc
      rw [if_neg hc, h1]
      exact h2
  · intro d n hfile hname
    cases d with
    | general =>
      cases hname
      show w1.user .general = _
      exact hg1
    | language l =>
      cases hname
      obtain ⟨ld, hmem, hln⟩ := (hknown l).mp hfile.1
      have hplain := hn ld hmem
      rw [hln] at hplain
      have : ((w1.setLanguages σ defs fun n => (loadUserConfigFile files dir (.language n)).map fun t k => t.lookup k).user (.language l)) =
          w1.fromFile σ ((loadUserConfigFile files dir (.language l)).map fun t k => t.lookup k) (w1.user (.language l)) := by
        simp only [World.setLanguages]
        rw [if_pos ⟨ld, hmem, hln⟩]
      rw [this, loadUserConfigFile, configPath_plain dir hplain, ho1]
      generalize (⟨dir, l.toList ++ ".xiconfig".toList⟩ : FilePath) = p
      cases hp : (files p).join with
      | none =>
        funext k
        simp [World.fromFile, settingsIn, hp]
      | some t =>
        have ha := (hj p t hp).accepts hv1
        funext k
        simp only [World.fromFile, Option.map_some, settingsIn, hp, Option.getD_some]
        rw [if_pos ha]
    | userOverride => cases hname
    | sysOverride => cases hname

/-! ## What is not so -/

/-- The languages and files of the examples. -/
def Config.fileExample (defs : List (LanguageDef Val)) (files : Files Val) (id : Nat) (ext k : String) : Option (Option Val) :=
  ((Manager.new builtIn).finishSetup bufferItems files ["config"] defs).bind fun m =>
    (Config.Op.run bufferItems m (.add id (some ext))).bind fun m => (m.buffers.lookup id).map fun c => c.toTable.lookup k

/-- A folder with one file. -/
def Config.oneFile (p : FilePath) (t : Table Val) : Files Val := fun q => if q = p then some (some t) else none

/-- C100: the file of a language is read at the start. -/
example : fileExample [⟨"Rust", ["rs"], none⟩] (oneFile ⟨["config"], "Rust.xiconfig".toList⟩ [("tab_size", .num 3)]) 1 "rs" "tab_size" = some (some (.num 3)) := by decide +kernel

/-- **C100 refuted: languages with a dot in their names.**  At the start the settings for `F.x` are looked for in the file `F.xiconfig`, not in `F.x.xiconfig`; when the
latter changes, it counts. -/
theorem C100_dot_refuted :
    configPath ["config"] (.language "F.x") = ⟨["config"], "F.xiconfig".toList⟩ ∧
      fileExample [⟨"F.x", ["fx"], none⟩] (oneFile ⟨["config"], "F.x.xiconfig".toList⟩ [("tab_size", .num 3)]) 1 "fx" "tab_size" = some (some (.num 4)) ∧
      fileExample [⟨"F.x", ["fx"], none⟩] (oneFile ⟨["config"], "F.xiconfig".toList⟩ [("tab_size", .num 3)]) 1 "fx" "tab_size" = some (some (.num 3)) ∧
      ((Config.Op.run bufferItems (Manager.new builtIn) (.languages [⟨"F.x", ["fx"], none⟩] fun _ => none)).map fun m =>
        (m.domainForPath ⟨["config"], "F.x.xiconfig".toList⟩, m.domainForPath ⟨["config"], "F.xiconfig".toList⟩)) = some (some (.language "F.x"), none) := by
  refine ⟨?_, ?_, ?_, ?_⟩ <;> decide +kernel

/-- **C100 refuted: a language called `preferences`.**  At the start the general settings are taken for those of the language too, and later changes of the file are not. -/
theorem C100_preferences_refuted :
    configPath ["config"] (.language "preferences") = configPath ["config"] .general ∧
      ((Config.Op.run bufferItems (Manager.new builtIn) (.languages [⟨"preferences", ["p"], none⟩] fun _ => none)).bind fun m =>
        m.domainForPath (configPath ["config"] (.language "preferences"))) = some .general := by
  refine ⟨?_, ?_⟩ <;> decide +kernel

/-- **C100 refuted: other folders.**  A file of the right name in a folder further down, such as that of a plugin, replaces the settings when it is written, and when it
is removed they are gone, though the file in the folder of the settings is there. -/
theorem C100_folder_refuted :
    let files : Files Val := fun q => if q = ⟨["config"], "preferences.xiconfig".toList⟩ then some (some [("tab_size", .num 3)]) else none
    let below : FilePath := ⟨["config", "plugins", "old"], "preferences.xiconfig".toList⟩
    let see := fun (m : Manager Val) => (Config.Op.run bufferItems m (.add 1 none)).bind fun m => (m.buffers.lookup 1).map fun c => c.toTable.lookup "tab_size"
    let run := fun (steps : List (FileStep Val)) => ((Manager.new builtIn).finishSetup bufferItems files ["config"] []).bind fun m =>
      (steps.foldlM (FileState.step bufferItems) ⟨files, [], m⟩).bind fun s => see s.manager
    run [] = some (some (.num 3)) ∧ run [.write below [("tab_size", .num 7)], .handle] = some (some (.num 7)) ∧
      run [.write below [("tab_size", .num 7)], .handle, .remove below, .handle] = some (some (.num 4)) := by
  refine ⟨?_, ?_, ?_⟩ <;> decide +kernel

/-- C100: steps with late events that may be taken, and what comes of them. -/
example :
    let home : FilePath := ⟨["config"], "preferences.xiconfig".toList⟩
    let rust : FilePath := ⟨["config"], "Rust.xiconfig".toList⟩
    let away : FilePath := ⟨["config"], "old.xiconfig".toList⟩
    let see := fun (m : Manager Val) => (Config.Op.run bufferItems m (.add 1 (some "rs"))).bind fun m => (m.buffers.lookup 1).map fun c => c.toTable.lookup "tab_size"
    let run := fun (steps : List (FileStep Val)) => ((Manager.new builtIn).finishSetup bufferItems (fun _ => none) ["config"] [⟨"Rust", ["rs"], none⟩]).bind fun m =>
      (steps.foldlM (FileState.step bufferItems) ⟨fun _ => none, [], m⟩).bind fun s => see s.manager
    run [.write home [("tab_size", .num 7)], .write rust [("tab_size", .num 2)], .handle, .handle] = some (some (.num 2)) ∧
      run [.write home [("tab_size", .num 7)], .write rust [("tab_size", .num 2)], .rename rust away, .handle, .handle, .handle] = some (some (.num 7)) ∧
      run [.write home [("tab_size", .num 7)], .remove home, .write home [("tab_size", .num 8)], .handle, .handle, .handle] = some (some (.num 8)) := by
  refine ⟨?_, ?_, ?_⟩ <;> decide +kernel

/-- **C100.** What the value of a setting in a file becomes; a list or table in it is taken over item by item. -/
theorem C100_scalar (s : String) (n m e : Int) (b : Bool) : fromToml (.string s) = .string s ∧ fromToml (.integer n) = .int n ∧ fromToml (.boolean b) = .bool b ∧
    fromToml (.float (.finite m e)) = .double m e ∧ fromToml (.datetime s) = .string s := by
  refine ⟨?_, ?_, ?_, ?_, ?_⟩ <;> simp [fromToml, Json.ofDouble]

theorem Config.fromTomlEntries_lookup (k : String) : ∀ entries : List (String × Toml), (fromTomlEntries entries).lookup k = (entries.lookup k).map fromToml
  | [] => rfl
  | (j, v) :: rest => by
    rw [fromTomlEntries]
    simp only [List.lookup_cons]
    split
    · rfl
    · exact fromTomlEntries_lookup k rest

/-- **C100.** In a table every key has the value it has in the file. -/
theorem C100_table (entries : List (String × Toml)) : ∃ t, fromToml (.table entries) = .object t ∧ ∀ k, t.lookup k = (entries.lookup k).map fromToml :=
  ⟨_, by rw [fromToml], fun k => fromTomlEntries_lookup k entries⟩

/-- The numbers of a file are finite. -/
inductive Config.Toml.Finite : Toml → Prop where
  | string (s : String) : Finite (.string s)
  | integer (n : Int) : Finite (.integer n)
  | boolean (b : Bool) : Finite (.boolean b)
  | datetime (s : String) : Finite (.datetime s)
  | float (m e : Int) : Finite (.float (.finite m e))
  | table (entries : List (String × Toml)) : Finite (.table entries)
  | array (items : List Toml) : Finite (.array items)

/-- **C100 (partial).** Null comes only from numbers that are not finite. -/
theorem C100_null_partial (v : Toml) : fromToml v = .null ↔ ¬ v.Finite := by
  constructor
  · intro h hf
    cases hf <;> simp [fromToml, Json.ofDouble] at h
  · intro h
    cases v with
    | float d =>
      cases d with
      | finite m e => exact absurd (.float m e) h
      | inf b => simp [fromToml, Json.ofDouble]
      | nan => simp [fromToml, Json.ofDouble]
    | string s => exact absurd (.string s) h
    | integer n => exact absurd (.integer n) h
    | boolean b => exact absurd (.boolean b) h
    | datetime s => exact absurd (.datetime s) h
    | table t => exact absurd (.table t) h
    | array l => exact absurd (.array l) h

/-- The value of a setting, of the kinds `bufferItems` knows. -/
def Config.Val.ofJson : Json → Val
  | .null => .null
  | .bool b => .bool b
  | .int n => .num n
  | .string s => .str s
  | .double m _ => .num m
  | .array _ => .pairs []
  | .object _ => .pairs []

/-- **C100 refuted: no panic.**  A file with `font_size = nan` is accepted, since null stands for a setting to be cleared; then there are no settings to be had for any
buffer, and the editor panics. -/
theorem C100_nan_refuted :
    let t : Table Val := [("font_size", Val.ofJson (fromToml (.float .nan)))]
    let home : FilePath := ⟨["config"], "preferences.xiconfig".toList⟩
    (Manager.new builtIn).checkTable bufferItems t = some true ∧
      (((Manager.new builtIn).finishSetup bufferItems (oneFile home t) ["config"] []).isSome = true) ∧
      (((Manager.new builtIn).finishSetup bufferItems (oneFile home t) ["config"] []).bind fun m => Config.Op.run bufferItems m (.add 1 none)).isSome = false ∧
      (((Config.Op.run bufferItems (Manager.new builtIn) (.add 1 none)).bind fun m =>
        (m.handleFileEvent bufferItems (oneFile home t) (.written home)).map fun r => r.1.buffers.length)) = none := by
  refine ⟨?_, ?_, ?_, ?_⟩ <;> decide +kernel

/-- **C100 refuted: the settings that come with plugins.**  Languages whose names differ after the last dot share one file, and that of a language called `manifest` is the
manifest of the plugin. -/
theorem C100_plugin_file_refuted :
    pluginSettingsPath ["p"] "F.x" = pluginSettingsPath ["p"] "F.y" ∧ pluginSettingsPath ["p"] "manifest" = ⟨["p"], "manifest.toml".toList⟩ := by
  refine ⟨?_, ?_⟩ <;> decide +kernel

end Xi
