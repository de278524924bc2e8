import Verif.View.Search
import Verif.Props.EditView

/-!
# C81: the search queries of a view, and showing what they find
-/

namespace Xi

open Find Selection FindState

namespace ViewSearch

/-! ## Specification -/

/-- The state of a query is that of what is asked for. -/
def Asks (q : SearchQuery) (f : FindState) : Prop :=
  f.searchString = some q.chars ∧ f.caseMatching = (if q.caseSensitive then .exact else .caseInsensitive) ∧ f.wholeWords = q.wholeWords

/-- The numbers of the queries are distinct, and later ones will differ from them. -/
structure Ok (s : ViewSearch) : Prop where
  nodup : (s.finds.map Prod.fst).Nodup
  le : ∀ f ∈ s.finds, f.1 ≤ s.counter

/-- The numbers given with the queries. -/
def idsOf (queries : List SearchQuery) : List Nat := queries.filterMap (·.id)

/-- Queries that refer to those the view has, each at most once. -/
structure Known (s : ViewSearch) (queries : List SearchQuery) : Prop where
  nodup : (idsOf queries).Nodup
  known : ∀ id ∈ idsOf queries, id ∈ s.finds.map Prod.fst

/-! ## Setting queries -/

theorem setFind_spec (f : FindState) (q : SearchQuery) : Asks q (f.setFind q.chars q.caseSensitive q.wholeWords).1 ∧
    ((f.setFind q.chars q.caseSensitive q.wholeWords).2 = false → (f.setFind q.chars q.caseSensitive q.wholeWords).1 = f) ∧
    ((f.setFind q.chars q.caseSensitive q.wholeWords).2 = true → (f.setFind q.chars q.caseSensitive q.wholeWords).1.occurrences = []) := by
  unfold FindState.setFind Asks
  simp only
  generalize hk : (if q.chars.isEmpty = true then f.unset else f) = k
  by_cases h : k.searchString = some q.chars ∧ sameCase (if q.caseSensitive = true then .exact else .caseInsensitive) k.caseMatching = true ∧ k.wholeWords = q.wholeWords
  · rw [if_pos h]
    obtain ⟨h1, h2, h3⟩ := h
    have hne : q.chars.isEmpty = false := by
      cases hp : q.chars.isEmpty with
      | false => rfl
      | true =>
        rw [hp, if_pos rfl] at hk
        rw [← hk] at h1
        cases h1
    rw [hne, if_neg (by simp)] at hk
    subst hk
    refine ⟨⟨h1, ?_, h3⟩, fun _ => rfl, fun h => by cases h⟩
    show f.caseMatching = _
    revert h2
    cases q.caseSensitive <;> cases f.caseMatching <;> simp [sameCase]
  · rw [if_neg h]
    exact ⟨⟨rfl, rfl, rfl⟩, fun h => (by cases h), fun _ => rfl⟩

theorem setAt_eq {s : ViewSearch} {pos : Nat} {f : Nat × FindState} (h : s.finds[pos]? = some f) (q : SearchQuery) :
    s.setAt pos q = some ({ s with finds := s.finds.set pos (f.1, (f.2.setFind q.chars q.caseSensitive q.wholeWords).1) },
      (f.2.setFind q.chars q.caseSensitive q.wholeWords).2) := by
  unfold setAt
  rw [h]
  rfl

/-- What the loop does. -/
structure Looped (qs : List SearchQuery) (s : ViewSearch) (changed : Bool) (s' : ViewSearch) (c' : Bool) : Prop where
  ok : s'.Ok
  visible : s'.visible = s.visible
  progress : s'.progress = s.progress
  ids : ∃ new, s'.finds.map Prod.fst = s.finds.map Prod.fst ++ new ∧ new.length + (idsOf qs).length = qs.length
  rest : ∀ f ∈ s.finds, f.1 ∉ idsOf qs → f ∈ s'.finds
  asked : ∀ q ∈ qs, ∃ f ∈ s'.finds, Asks q f.2 ∧ ∀ id, q.id = some id → f.1 = id
  same : c' = false → changed = false ∧ s' = s
  fresh : ∀ f ∈ s'.finds, f ∈ s.finds ∨ f.2.occurrences = []
  flag : changed = true → c' = true
  only : ∀ f ∈ s'.finds, f ∈ s.finds ∧ f.1 ∉ idsOf qs ∨ ∃ q ∈ qs, Asks q f.2 ∧ ∀ id, q.id = some id → f.1 = id

/-- Setting one of the queries. -/
theorem setAt_spec {s : ViewSearch} (hs : s.Ok) {pos : Nat} {f : Nat × FindState} (h : s.finds[pos]? = some f) (q : SearchQuery) :
    ∃ s' c f', s.setAt pos q = some (s', c) ∧ s'.Ok ∧ s'.visible = s.visible ∧ s'.progress = s.progress ∧ s'.counter = s.counter ∧
      s'.finds.map Prod.fst = s.finds.map Prod.fst ∧ (f.1, f') ∈ s'.finds ∧ Asks q f' ∧ (∀ g ∈ s.finds, g.1 ≠ f.1 → g ∈ s'.finds) ∧
      (∀ g ∈ s'.finds, g ∈ s.finds ∨ g.2.occurrences = []) ∧ (c = false → s' = s) ∧
      ∀ g ∈ s'.finds, g = (f.1, f') ∨ g ∈ s.finds ∧ g.1 ≠ f.1 := by
  obtain ⟨a1, a2, a3⟩ := setFind_spec f.2 q
  have hlt := (List.getElem?_eq_some_iff.1 h).1
  have hids : (s.finds.set pos (f.1, (f.2.setFind q.chars q.caseSensitive q.wholeWords).1)).map Prod.fst = s.finds.map Prod.fst := by
    apply List.ext_getElem?
    intro i
    rw [List.getElem?_map, List.getElem?_map]
    by_cases e : pos = i
    · subst e
      rw [List.getElem?_set_self hlt, h]
      rfl
    · rw [List.getElem?_set_ne e]
  have hmem : (f.1, (f.2.setFind q.chars q.caseSensitive q.wholeWords).1) ∈ s.finds.set pos (f.1, (f.2.setFind q.chars q.caseSensitive q.wholeWords).1) :=
    List.mem_set hlt _
  refine ⟨_, _, _, setAt_eq h q, ⟨?_, ?_⟩, rfl, rfl, rfl, hids, hmem, a1, ?_, ?_, ?_, ?_⟩
  · show (List.map Prod.fst (s.finds.set pos _)).Nodup
    rw [hids]
    exact hs.nodup
  · intro g hg
    have : g.1 ∈ s.finds.map Prod.fst := by
      rw [← hids]
      exact List.mem_map_of_mem hg
    obtain ⟨k, hk, e⟩ := List.mem_map.1 this
    rw [← e]
    exact hs.le k hk
  · intro g hg hne
    obtain ⟨i, hi⟩ := List.mem_iff_getElem?.1 hg
    apply List.mem_iff_getElem?.2
    refine ⟨i, ?_⟩
    show (s.finds.set pos _)[i]? = some g
    rw [List.getElem?_set_ne ?_, hi]
    intro e
    subst e
    rw [h, Option.some.injEq] at hi
    exact hne (by rw [hi])
  · intro g hg
    rcases List.mem_or_eq_of_mem_set hg with hg | rfl
    · exact .inl hg
    · cases hc : (f.2.setFind q.chars q.caseSensitive q.wholeWords).2 with
      | false =>
        left
        rw [a2 hc]
        exact List.mem_of_getElem? h
      | true => exact .inr (a3 hc)
  · intro hc
    rw [a2 hc]
    have : s.finds.set pos (f.1, f.2) = s.finds := by
      apply List.ext_getElem?
      intro i
      by_cases e : pos = i
      · subst e
        rw [List.getElem?_set_self hlt, h]
      · rw [List.getElem?_set_ne e]
    rw [this]
  · intro g hg
    obtain ⟨i, hi⟩ := List.mem_iff_getElem?.1 hg
    have hi : (s.finds.set pos (f.1, (f.2.setFind q.chars q.caseSensitive q.wholeWords).1))[i]? = some g := hi
    by_cases e : pos = i
    · subst e
      rw [List.getElem?_set_self hlt, Option.some.injEq] at hi
      exact .inl hi.symm
    · rw [List.getElem?_set_ne e] at hi
      refine .inr ⟨List.mem_of_getElem? hi, fun he => e ?_⟩
      refine (List.getElem?_inj (l := s.finds.map Prod.fst) (by rw [List.length_map]; exact hlt) hs.nodup).1 ?_
      rw [List.getElem?_map, List.getElem?_map, hi, h]
      exact congrArg some he.symm

theorem addFind_ok {s : ViewSearch} (hs : s.Ok) : s.addFind.Ok := by
  constructor
  · show ((s.finds ++ [(s.counter + 1, FindState.new)]).map Prod.fst).Nodup
    rw [List.map_append, List.nodup_append]
    refine ⟨hs.nodup, by simp, ?_⟩
    intro a ha b hb
    obtain ⟨f, hf, rfl⟩ := List.mem_map.1 ha
    simp only [List.map_cons, List.map_nil, List.mem_singleton] at hb
    have := hs.le f hf
    omega
  · intro f hf
    have hf : f ∈ s.finds ++ [(s.counter + 1, FindState.new)] := hf
    show f.1 ≤ s.counter + 1
    rcases List.mem_append.1 hf with hf | hf
    · have := hs.le f hf
      omega
    · rw [List.mem_singleton.1 hf]
      exact Nat.le_refl _

theorem idsOf_some {q : SearchQuery} {id : Nat} (h : q.id = some id) (qs : List SearchQuery) : idsOf (q :: qs) = id :: idsOf qs := by
  unfold idsOf
  rw [List.filterMap_cons, h]

theorem idsOf_none {q : SearchQuery} (h : q.id = none) (qs : List SearchQuery) : idsOf (q :: qs) = idsOf qs := by
  unfold idsOf
  rw [List.filterMap_cons, h]

theorem setLoop_spec : ∀ (qs : List SearchQuery) {s : ViewSearch} (changed : Bool), s.Ok → Known s qs → ∃ s' c', setLoop qs s changed = some (s', some c') ∧ Looped qs s changed s' c'
  | [], s, changed, hs, _ => ⟨s, changed, rfl, hs, rfl, rfl, ⟨[], by simp, by simp [idsOf]⟩, fun f hf _ => hf, fun q hq => absurd hq List.not_mem_nil,
      fun h => ⟨h, rfl⟩, fun f hf => .inl hf, id, fun f hf => .inl ⟨hf, List.not_mem_nil⟩⟩
  | q :: qs, s, changed, hs, hk => by
    rw [setLoop.eq_def]
    simp only
    cases hq : q.id with
    | some id =>
      have hi := idsOf_some hq qs
      obtain ⟨n1, n2⟩ := hk
      rw [hi, List.nodup_cons] at n1
      rw [hi] at n2
      obtain ⟨f, hf, he⟩ := List.mem_map.1 (n2 id List.mem_cons_self)
      have hsome : (s.finds.findIdx? fun f => f.1 == id).isSome = true := by
        rw [List.findIdx?_isSome, List.any_eq_true]
        exact ⟨f, hf, by simp [he]⟩
      obtain ⟨pos, hpos⟩ := Option.isSome_iff_exists.1 hsome
      simp only [hpos]
      obtain ⟨hlt, hp, -⟩ := List.findIdx?_eq_some_iff_getElem.1 hpos
      have hp : (s.finds[pos]).1 = id := by simpa using hp
      have hget : s.finds[pos]? = some s.finds[pos] := List.getElem?_eq_getElem hlt
      obtain ⟨s1, c1, f1, e1, b1, b2, b3, b4, b5, b6, b7, b8, b9, b10, b11⟩ := setAt_spec hs hget q
      rw [hp] at b6 b8
      obtain ⟨s2, c2, e2, L⟩ := setLoop_spec qs (changed || c1) b1 ⟨n1.2, fun i hi' => by rw [b5]; exact n2 i (List.mem_cons_of_mem _ hi')⟩
      refine ⟨s2, c2, by rw [e1]; exact e2, L.ok, by rw [L.visible, b2], by rw [L.progress, b3], ?_, ?_, ?_, ?_, ?_, ?_, ?_⟩
      · obtain ⟨new, m1, m2⟩ := L.ids
        refine ⟨new, by rw [m1, b5], ?_⟩
        rw [hi]
        simp only [List.length_cons]
        omega
      · intro g hg hn
        rw [hi, List.mem_cons, not_or] at hn
        exact L.rest g (b8 g hg hn.1) hn.2
      · intro p hp'
        rcases List.mem_cons.1 hp' with rfl | hp'
        · refine ⟨(id, f1), L.rest _ b6 n1.1, b7, fun i hi' => ?_⟩
          rw [hq, Option.some.injEq] at hi'
          exact hi'
        · exact L.asked p hp'
      · intro hc
        obtain ⟨h1, h2⟩ := L.same hc
        rw [Bool.or_eq_false_iff] at h1
        exact ⟨h1.1, by rw [h2, b10 h1.2]⟩
      · intro g hg
        rcases L.fresh g hg with h | h
        · exact b9 g h
        · exact .inr h
      · intro hc
        exact L.flag (by rw [hc]; rfl)
      · intro g hg
        rcases L.only g hg with ⟨h1, h2⟩ | ⟨p, h1, h2⟩
        · rcases b11 g h1 with rfl | ⟨h3, h4⟩
          · exact .inr ⟨q, List.mem_cons_self, b7, fun i hi' => by rw [hq, Option.some.injEq] at hi'; rw [← hi']; exact hp⟩
          · refine .inl ⟨h3, ?_⟩
            rw [hi, List.mem_cons, not_or, ← hp]
            exact ⟨h4, h2⟩
        · exact .inr ⟨p, List.mem_cons_of_mem _ h1, h2⟩
    | none =>
      have hi := idsOf_none hq qs
      obtain ⟨n1, n2⟩ := hk
      rw [hi] at n1 n2
      have hlen : s.addFind.finds.length = s.finds.length + 1 := by simp [addFind]
      have hget : s.addFind.finds[s.finds.length]? = some (s.counter + 1, FindState.new) := by simp [addFind]
      have hsub : checkedSub s.addFind.finds.length 1 = some s.finds.length := by
        rw [hlen]
        simp [checkedSub]
      obtain ⟨s1, c1, f1, e1, b1, b2, b3, b4, b5, b6, b7, b8, b9, b10, b11⟩ := setAt_spec (addFind_ok hs) hget q
      have hids : s1.finds.map Prod.fst = s.finds.map Prod.fst ++ [s.counter + 1] := by
        rw [b5]
        simp [addFind]
      have hc1 : c1 = true := by
        cases c1 with
        | true => rfl
        | false =>
          rw [b10 rfl] at b6
          have hm : ((s.counter + 1, f1) : Nat × FindState) ∈ s.finds ++ [(s.counter + 1, FindState.new)] := b6
          rcases List.mem_append.1 hm with hm | hm
          · have := hs.le _ hm
            simp only at this
            omega
          · have := List.mem_singleton.1 hm
            simp only [Prod.mk.injEq, true_and] at this
            rw [this] at b7
            cases b7.1
      obtain ⟨s2, c2, e2, L⟩ := setLoop_spec qs (changed || c1) b1
        ⟨n1, fun i hi' => by rw [hids]; exact List.mem_append_left _ (n2 i hi')⟩
      refine ⟨s2, c2, by simp only [hsub, e1, Option.bind_eq_bind, Option.bind_some]; exact e2, L.ok, by rw [L.visible, b2]; rfl, by rw [L.progress, b3]; rfl, ?_, ?_, ?_, ?_, ?_, ?_, ?_⟩
      · obtain ⟨new, m1, m2⟩ := L.ids
        refine ⟨[s.counter + 1] ++ new, by rw [m1, hids, List.append_assoc], ?_⟩
        rw [hi]
        simp only [List.length_append, List.length_cons, List.length_nil]
        omega
      · intro g hg hn
        rw [hi] at hn
        refine L.rest g (b8 g (List.mem_append_left _ hg) ?_) hn
        have := hs.le g hg
        intro e
        simp only at e
        omega
      · intro p hp'
        rcases List.mem_cons.1 hp' with rfl | hp'
        · refine ⟨(s.counter + 1, f1), L.rest _ b6 ?_, b7, fun i hi' => by rw [hq] at hi'; cases hi'⟩
          intro hmem
          obtain ⟨g, hg, e⟩ := List.mem_map.1 (n2 _ hmem)
          have := hs.le g hg
          simp only at e
          omega
        · exact L.asked p hp'
      · intro hc
        obtain ⟨h1, h2⟩ := L.same hc
        rw [hc1] at h1
        simp at h1
      · intro g hg
        rcases L.fresh g hg with h | h
        · rcases b9 g h with h | h
          · rcases List.mem_append.1 h with h | h
            · exact .inl h
            · rw [List.mem_singleton.1 h]
              exact .inr rfl
          · exact .inr h
        · exact .inr h
      · intro hc
        exact L.flag (by rw [hc]; rfl)
      · intro g hg
        rcases L.only g hg with ⟨h1, h2⟩ | ⟨p, h1, h2⟩
        · rcases b11 g h1 with rfl | ⟨h3, h4⟩
          · exact .inr ⟨q, List.mem_cons_self, b7, fun i hi' => by rw [hq] at hi'; cases hi'⟩
          · have h3 : g ∈ s.finds ++ [(s.counter + 1, FindState.new)] := h3
            rcases List.mem_append.1 h3 with h3 | h3
            · exact .inl ⟨h3, by rw [hi]; exact h2⟩
            · exact absurd (by rw [List.mem_singleton.1 h3]) h4
        · exact .inr ⟨p, List.mem_cons_of_mem _ h1, h2⟩

/-- **C81.** Queries that refer to those the view has are set as asked: each has its state, which keeps its number, and there are no others.  Either
nothing changes at all, or the view is drawn anew and the search begins; a query has highlights only if it is as before. -/
theorem C81_set {s : ViewSearch} (hs : s.Ok) {queries : List SearchQuery} (hk : Known s queries) :
    ∃ s' dirty, s.setFind queries = some (s', dirty) ∧ s'.Ok ∧ s'.visible = s.visible ∧ s'.finds.length = queries.length ∧
      (∀ q ∈ queries, ∃ f ∈ s'.finds, Asks q f.2 ∧ ∀ id, q.id = some id → f.1 = id) ∧
      (∀ f ∈ s'.finds, ∃ q ∈ queries, Asks q f.2 ∧ ∀ id, q.id = some id → f.1 = id) ∧
      (∀ f ∈ s'.finds, f ∈ s.finds ∨ f.2.occurrences = []) ∧ (dirty = false → s' = s) ∧ (dirty = true → s'.progress = .started) := by
  have ok0 : ViewSearch.Ok { s with finds := s.finds.filter fun f => queries.any fun q => q.id == some f.1 } :=
    ⟨(List.filter_sublist.map Prod.fst).nodup hs.nodup, fun f hf => hs.le f (List.mem_filter.1 hf).1⟩
  have mem0 : ∀ f : Nat × FindState, (queries.any fun q => q.id == some f.1) = true ↔ f.1 ∈ idsOf queries := by
    intro f
    simp [idsOf]
  have iff0 : ∀ id, id ∈ (s.finds.filter fun f => queries.any fun q => q.id == some f.1).map Prod.fst ↔ id ∈ idsOf queries := by
    intro id
    constructor
    · intro h
      obtain ⟨f, hf, rfl⟩ := List.mem_map.1 h
      exact (mem0 f).1 (List.mem_filter.1 hf).2
    · intro h
      obtain ⟨f, hf, rfl⟩ := List.mem_map.1 (hk.known id h)
      exact List.mem_map_of_mem (List.mem_filter.2 ⟨hf, (mem0 f).2 h⟩)
  have hperm := (List.perm_ext_iff_of_nodup ok0.nodup hk.nodup).2 iff0
  obtain ⟨s', c', e, L⟩ := setLoop_spec queries (decide (queries.length ≠ s.finds.length)) ok0 ⟨hk.nodup, fun id h => (iff0 id).2 h⟩
  have hlen : s'.finds.length = queries.length := by
    obtain ⟨new, m1, m2⟩ := L.ids
    have h1 := congrArg List.length m1
    have h2 := hperm.length_eq
    simp only [List.length_map, List.length_append] at h1 h2
    omega
  have honly : ∀ f ∈ s'.finds, ∃ q ∈ queries, Asks q f.2 ∧ ∀ id, q.id = some id → f.1 = id := by
    intro f hf
    rcases L.only f hf with ⟨h1, h2⟩ | h
    · exact absurd ((iff0 f.1).1 (List.mem_map_of_mem h1)) h2
    · exact h
  have hfresh : ∀ f ∈ s'.finds, f ∈ s.finds ∨ f.2.occurrences = [] := by
    intro f hf
    rcases L.fresh f hf with h | h
    · exact .inl (List.mem_filter.1 h).1
    · exact .inr h
  have hrun : s.setFind queries = (match some c' with
      | some true => some ({ s' with progress := .started }, true)
      | some false => some (s', false)
      | none => some (s', false)) := by
    unfold setFind
    simp only [e, Option.bind_eq_bind, Option.bind_some]
    rfl
  cases c' with
  | true => exact ⟨_, _, hrun, ⟨L.ok.nodup, L.ok.le⟩, L.visible, hlen, L.asked, honly, hfresh, fun h => (by cases h), fun _ => rfl⟩
  | false =>
    refine ⟨_, _, hrun, L.ok, L.visible, hlen, L.asked, honly, hfresh, fun _ => ?_, fun h => (by cases h)⟩
    obtain ⟨h1, h2⟩ := L.same rfl
    have h1 : queries.length = s.finds.length := by simpa using h1
    rw [h2] at hlen
    have := List.filter_sublist.eq_of_length (hlen.trans h1)
    rw [h2, this]

/-! ## Searching -/

/-- The query is empty, or one of those the search finds all matches of (C72); and what it has found are matches. -/
def Fine (lower : CaseTable) (t : List UInt8) (f : FindState) : Prop :=
  ∃ pat, f.searchString = some pat ∧ (Good lower t f ∨ pat = [] ∧ f.occurrences = [])

/-- All matches have been found. -/
def Found (lower : CaseTable) (t : List UInt8) (f : FindState) : Prop :=
  ∀ pat, pat ≠ [] → f.searchString = some pat → Exact lower t f.caseMatching pat f.occurrences

section
variable {lower : CaseTable} {text : Rope} {f : FindState}

theorem updateFind_empty (ht : text.Balanced) (h : f.searchString = some []) {start stop : Nat} (h1 : start ≤ stop) (h2 : start ≤ text.text.length) (slop : Bool) :
    updateFind lower false f text start stop slop = some { f with hlsDirty := true } := by
  obtain ⟨from', to, toC, toC', x, sub, c, g1, g2, g3, g4, g5, -⟩ := range_spec (pat := []) ht h1 h2 slop
  have hf : Find.find lower f.caseMatching [] c = some (c, none) := by
    unfold Find.find Find.findProgress
    rfl
  simp only [updateFind, h, g1, g2, g3, g4, g5, Option.bind_eq_bind, Option.bind_some, linesRaw, findLoop, hf]
  rfl

theorem Fine.empty {t : List UInt8} (h : Fine lower t f) (he : f.searchString = some []) : f.occurrences = [] := by
  obtain ⟨pat, hp, h | ⟨-, h⟩⟩ := h
  · obtain ⟨hreg, -⟩ := h [] he
    revert hreg
    cases f.caseMatching with
    | exact => exact fun h => absurd rfl h
    | caseInsensitive => exact fun h => absurd rfl h.1
  · exact h

theorem updateFind_fine (hl : lower.Ok) (ht : text.Balanced) (hsize : text.text.length < 2 ^ 64 - 1) (hf : Fine lower text.text f)
    {start stop : Nat} (h1 : start ≤ stop) (h2 : start ≤ text.text.length) (slop : Bool) :
    ∃ f', updateFind lower false f text start stop slop = some f' ∧ Fine lower text.text f' ∧ SameQuery f f' ∧
      (start = 0 → stop = text.text.length → Found lower text.text f') := by
  obtain ⟨pat, hpat, hf | ⟨rfl, ho⟩⟩ := hf
  · by_cases hw : start = 0 ∧ stop = text.text.length
    · obtain ⟨rfl, rfl⟩ := hw
      obtain ⟨f', k1, k2, k3, k4⟩ := updateFind_done hl ht hsize hf slop
      exact ⟨f', k1, ⟨pat, by rw [← k3.1, hpat], .inl k2⟩, k3, fun _ _ pat _ hp => k4 pat hp⟩
    · obtain ⟨f', k1, k2, k3⟩ := updateFind_good hl ht hsize hf h1 h2 slop
      exact ⟨f', k1, ⟨pat, by rw [← k3.1, hpat], .inl k2⟩, k3, fun a b => absurd ⟨a, b⟩ hw⟩
  · refine ⟨_, updateFind_empty ht hpat h1 h2 slop, ⟨[], hpat, .inr ⟨rfl, ho⟩⟩, ⟨rfl, rfl, rfl⟩, fun _ _ pat hne hp => ?_⟩
    have hp : f.searchString = some pat := hp
    rw [hpat, Option.some.injEq] at hp
    exact absurd hp.symm hne

theorem each_length {α β : Type} {R : α → β → Prop} {l : List α} {l' : List β} (h : Each R l l') : l.length = l'.length := by
  induction h with
  | nil => rfl
  | cons _ _ ih => simp [ih]

/-- **C81.** A step of the search does not crash, and it only finds matches. -/
theorem C81_batch_safe (hl : lower.Ok) (ht : text.Balanced) (hsize : text.text.length < 2 ^ 64 - 1) {first : Nat} (hv : first ≤ text.text.length) {s : ViewSearch}
    (hs : s.Ok) (hp : s.progress.Inside text.text.length) (hq : ∀ f ∈ s.finds, Fine lower text.text f.2) :
    ∃ s' qs', s.doFind lower false text first = some s' ∧ s'.Ok ∧ s'.visible = s.visible ∧ s'.progress.Inside text.text.length ∧
      s'.finds = (s.finds.map Prod.fst).zip qs' ∧ Each SameQuery (s.finds.map Prod.snd) qs' ∧ (∀ f ∈ s'.finds, Fine lower text.text f.2) ∧
      (s.progress ≠ .ready → (FindProgress.nextRange first text.text.length s.progress).2 = some (0, text.text.length) → ∀ f ∈ s'.finds, Found lower text.text f.2) ∧
      (s.progress = .ready → s' = s) ∧ s'.progress = (FindProgress.nextRange first text.text.length s.progress).1 := by
  have hlen : text.len = text.text.length := Rope.len_eq ht
  by_cases hr : s.progress = .ready
  · have hz : (s.finds.map Prod.fst).zip (s.finds.map Prod.snd) = s.finds := by
      rw [List.zip_map']
      simp
    refine ⟨s, s.finds.map Prod.snd, ?_, hs, rfl, hp, hz.symm, Each.refl (fun _ => ⟨rfl, rfl, rfl⟩) _, hq, fun h => absurd hr h, fun _ => rfl, by rw [hr]; rfl⟩
    unfold doFind FindProgress.doFind
    rw [hr]
    simp only [FindProgress.nextRange, Option.bind_eq_bind, Option.bind_some, hz, ← hr]
    rfl
  · obtain ⟨p', start, stop, h1, h2, h3, h4, -, -⟩ := FindProgress.next_spec hv hp hr
    obtain ⟨qs', k1, k2⟩ := mapM_each (l := s.finds.map Prod.snd) (f := fun q => q.updateFind lower false text start stop true)
      (R := fun h h' => Fine lower text.text h' ∧ SameQuery h h' ∧ (start = 0 → stop = text.text.length → Found lower text.text h')) (fun q hq' => by
        obtain ⟨f, hf, rfl⟩ := List.mem_map.1 hq'
        exact updateFind_fine hl ht hsize (hq f hf) h2 h3 true)
    have hll := each_length k2
    rw [List.length_map] at hll
    have hfst : ((s.finds.map Prod.fst).zip qs').map Prod.fst = s.finds.map Prod.fst := List.map_fst_zip (by rw [List.length_map]; omega)
    have hsnd : ∀ f ∈ (s.finds.map Prod.fst).zip qs', f.2 ∈ qs' := fun f hf => (List.of_mem_zip (a := f.1) (b := f.2) hf).2
    refine ⟨{ s with progress := p', finds := (s.finds.map Prod.fst).zip qs' }, qs', ?_, ⟨?_, ?_⟩, rfl, h4, rfl, k2.imp fun _ _ h => h.2.1,
      fun f hf => (k2.right fun _ _ h => h.1) _ (hsnd f hf), ?_, fun h => absurd h hr, by rw [h1]⟩
    · unfold doFind FindProgress.doFind
      simp only [hlen, h1, k1]
      rfl
    · show (((s.finds.map Prod.fst).zip qs').map Prod.fst).Nodup
      rw [hfst]
      exact hs.nodup
    · intro f hf
      have : f.1 ∈ s.finds.map Prod.fst := (List.of_mem_zip (a := f.1) (b := f.2) hf).1
      obtain ⟨k, hk, e⟩ := List.mem_map.1 this
      rw [← e]
      exact hs.le k hk
    · intro _ hw f hf
      rw [h1] at hw
      simp only [Option.some.injEq, Prod.mk.injEq] at hw
      exact (k2.right fun _ _ h => h.2.2 hw.1 hw.2) _ (hsnd f hf)

end

/-! ## Showing what is found -/

open Gesture

section
variable {U : Type} {rule : WrapRule} {r : Rope} {v : ShownView} {m : Missing} {styles : List U} {client : List (Option (ScreenLine (List UInt8) (Look U)))}

/-- No line whose styles the front end has would look different. -/
def Quiet (v : ShownView) (r : Rope) (styles : List U) (find find' : List Selection) : Prop :=
  ∀ (i k : Nat) (w : Validity) a b, v.shadow.lines[i]? = some (some (k, w)) → w.styles = true →
    (looks find styles r.text v.lines.breaks.text v.selection)[i]? = some a → (looks find' styles r.text v.lines.breaks.text v.selection)[i]? = some b → a.styles = b.styles

/-- **C81.** When queries are set, or highlights are shown or hidden, lines that look different afterwards are sent again. -/
theorem C81_drawn {find find' : List Selection} {dirty : Bool} (h : WrapRun rule r v.lines) (hr : (stateOf find styles r v client).Good)
    (hd : dirty = false → find' = find) :
    ∃ v', (if dirty then v.setDirty r else some v) = some v' ∧ v'.lines = v.lines ∧ v'.selection = v.selection ∧ (stateOf find' styles r v' client).Good ∧
      (dirty = true → ∀ find'', Quiet v' r styles find' find'' ∧ (stateOf find'' styles r v' client).Good) := by
  cases dirty with
  | false =>
    rw [hd rfl]
    exact ⟨v, rfl, rfl, rfl, hr, fun h => by cases h⟩
  | true =>
    have key : ∀ find'', v.setDirty r = some { v with shadow := .allDirty (looks find'' styles r.text v.lines.breaks.text v.selection).length } :=
      fun find'' => dirty_height (find := find'') (styles := styles) (sel := v.selection) h v rfl
    refine ⟨_, key find', rfl, rfl, good_allDirty looks_pos _, fun _ find'' => ⟨?_, ?_⟩⟩
    · intro i k w a b hi
      have hz : ∀ n, (LineCacheShadow.allDirty n).lines[i]? ≠ some (some (k, w)) := by
        intro n hn
        rw [(allDirty_lines n).1, List.getElem?_replicate] at hn
        split at hn
        · cases hn
        · cases hn
      exact absurd hi (hz _)
    · have h1 := key find'
      rw [key find'', Option.some.injEq] at h1
      rw [← h1]
      exact good_allDirty looks_pos _

/-- **C81.** A search that changes no line the front end has leaves the record of the front end right. -/
theorem C81_quiet {find find' : List Selection} (hr : (stateOf find styles r v client).Good) (hq : Quiet v r styles find find') :
    (stateOf find' styles r v client).Good := by
  have hlen : (looks find' styles r.text v.lines.breaks.text v.selection).length = (looks find styles r.text v.lines.breaks.text v.selection).length := by
    rw [looks_length, looks_length]
  refine ⟨looks_pos, ?_, hr.noEmpty, hr.asc, ?_, ?_⟩
  · show v.shadow.lines.length = _
    rw [show (stateOf find' styles r v client).cur.length = _ from hlen]
    exact hr.len
  · intro i k w hi
    obtain ⟨L, c, a1, a2, a3⟩ := hr.agree i k w hi
    have a2 : (looks find styles r.text v.lines.breaks.text v.selection)[i]? = some c := a2
    obtain ⟨hx, -⟩ := List.getElem?_eq_some_iff.1 a2
    rw [← hlen] at hx
    have b2 : (looks find' styles r.text v.lines.breaks.text v.selection)[i]? = some _ := List.getElem?_eq_getElem hx
    refine ⟨L, _, a1, b2, ?_⟩
    have hs := hq i k w c ((looks find' styles r.text v.lines.breaks.text v.selection)[i]) hi
    obtain ⟨t1, t2, t3⟩ := a3
    have h12 : c.text = ((looks find' styles r.text v.lines.breaks.text v.selection)[i]).text ∧
        c.cursor = ((looks find' styles r.text v.lines.breaks.text v.selection)[i]).cursor := by
      have e1 := a2
      have e2 := b2
      rw [looks_get] at e1 e2
      cases hx : (visualStarts r.text v.lines.breaks.text)[i]? with
      | none => rw [hx] at e1; cases e1
      | some p =>
        rw [hx] at e1 e2
        simp only [Option.map_some, Option.some.injEq] at e1 e2
        rw [← e1, ← e2]
        exact ⟨rfl, rfl⟩
    exact ⟨fun h => (t1 h).trans h12.1, fun h => (t2 h).trans (hs h a2 b2), fun h => (t3 h).trans h12.2⟩
  · intro hc
    obtain ⟨c1, c2, c3⟩ := hr.clean hc
    exact ⟨by rw [show (stateOf find' styles r v client).cur.length = _ from hlen]; exact c1, c2, c3⟩

/-- Highlights are seen only by where they are. -/
theorem looks_same {find find' : List Selection} (h : find.map (·.map fun q => (q.start, q.stop)) = find'.map (·.map fun q => (q.start, q.stop)))
    (t : List UInt8) (b : List Bool) (sel : Selection) : looks find styles t b sel = looks find' styles t b sel := by
  have one : ∀ {f f' : Selection}, f.map (fun q => (q.start, q.stop)) = f'.map (fun q => (q.start, q.stop)) → ∀ s e, selectedIn f s e = selectedIn f' s e := by
    intro f f' hf s e
    have : ∀ f : Selection, selectedIn f s e = ((f.map fun q => (q.start, q.stop)).filter fun p => max (min p.1 p.2) s < min (max p.1 p.2) e).map
        fun p => (max (min p.1 p.2) s - s, min (max p.1 p.2) e - s) := by
      intro f
      unfold selectedIn
      rw [List.filter_map, List.map_map]
      rfl
    rw [this f, this f', hf]
  have all : ∀ s e, highlightsIn find s e = highlightsIn find' s e := by
    intro s e
    unfold highlightsIn
    induction find generalizing find' with
    | nil =>
      cases find' with
      | nil => rfl
      | cons f' find' => simp at h
    | cons f find ih =>
      cases find' with
      | nil => simp at h
      | cons f' find' =>
        simp only [List.map_cons, List.cons.injEq] at h ⊢
        exact ⟨one h.1 s e, ih h.2⟩
  unfold looks lookOf
  simp only [all]

/-- **C81.** In a text that is not too long and is seen from its start, the first step of the search finds all matches. -/
theorem C81_top {lower : CaseTable} (hl : lower.Ok) (ht : r.Balanced) (hlen : r.text.length ≤ FindProgress.batchSize) {s : ViewSearch}
    (hs : s.Ok) (hq : ∀ f ∈ s.finds, Fine lower r.text f.2) (hp : s.progress = .started) :
    ∃ s', s.doFind lower false r 0 = some s' ∧ s'.Ok ∧ s'.visible = s.visible ∧ (∀ f ∈ s'.finds, Fine lower r.text f.2 ∧ Found lower r.text f.2) ∧
      s'.progress = .inProgress 0 r.text.length := by
  have hb : FindProgress.batchSize = 500000 := rfl
  obtain ⟨s', qs', h1, h2, h3, h4, h5, h6, h7, h8, h9, h10⟩ := C81_batch_safe hl ht (by omega) (Nat.zero_le r.text.length) hs (by rw [hp]; trivial) hq
  have hm : min r.text.length (0 + FindProgress.batchSize) = r.text.length := by omega
  rw [hp] at h8 h10
  simp only [FindProgress.nextRange, hm] at h8 h10
  exact ⟨s', h1, h2, h3, fun f hf => ⟨h7 f hf, h8 (by simp) trivial f hf⟩, h10⟩

/-- **C81.** When all matches have been found, the rest of the search changes nothing that can be seen, wherever the window is. -/
theorem C81_rest {lower : CaseTable} (hl : lower.Ok) (ht : r.Balanced) (hsize : r.text.length < 2 ^ 64 - 1) {s : ViewSearch} {first stop : Nat} (hv : first ≤ r.text.length)
    (hs : s.Ok) (hq : ∀ f ∈ s.finds, Fine lower r.text f.2 ∧ Found lower r.text f.2) (hp : s.progress = .ready ∨ s.progress = .inProgress 0 stop ∧ r.text.length ≤ stop) :
    ∃ s', s.doFind lower false r first = some s' ∧ s'.Ok ∧ (∀ f ∈ s'.finds, Fine lower r.text f.2 ∧ Found lower r.text f.2) ∧ s'.progress = .ready ∧
      Quiet v r styles s.shown s'.shown := by
  obtain ⟨s', qs', h1, h2, h3, h4, h5, h6, h7, h8, h9, h10⟩ := C81_batch_safe (s := s) hl ht hsize hv hs (by rcases hp with h | h <;> simp [h, FindProgress.Inside])
    (fun f hf => (hq f hf).1)
  rcases hp with hp | ⟨hp, hst⟩
  · have := h9 hp
    subst this
    refine ⟨s', h1, h2, hq, hp, ?_⟩
    intro i k w a b _ _ ha hb
    rw [ha, Option.some.injEq] at hb
    rw [hb]
  · rw [hp] at h8 h10
    simp only [FindProgress.nextRange, ge_iff_le, hst, and_self, if_true] at h8 h10
    have h8 := h8 (by simp) trivial
    refine ⟨s', h1, h2, fun f hf => ⟨h7 f hf, h8 f hf⟩, h10, ?_⟩
    have key : s.shown.map (·.map fun q => (q.start, q.stop)) = s'.shown.map (·.map fun q => (q.start, q.stop)) := by
      unfold shown
      rw [h3]
      split
      · rw [List.map_map, List.map_map, h5]
        have hsame : ∀ (l : List (Nat × FindState)) (qs : List FindState), Each SameQuery (l.map Prod.snd) qs → (∀ f ∈ l, Fine lower r.text f.2 ∧ Found lower r.text f.2) →
            (∀ f ∈ (l.map Prod.fst).zip qs, Fine lower r.text f.2 ∧ Found lower r.text f.2) →
            l.map (fun f => f.2.occurrences.map fun q => (q.start, q.stop)) = ((l.map Prod.fst).zip qs).map (fun f => f.2.occurrences.map fun q => (q.start, q.stop)) := by
          intro l
          induction l with
          | nil => intro qs he _ _; cases he; rfl
          | cons f l ih =>
            intro qs he hq1 hq2
            cases he with
            | cons hsq he =>
              rename_i g qs
              simp only [List.map_cons, List.zip_cons_cons, List.cons.injEq]
              refine ⟨?_, ih _ he (fun f hf => hq1 f (List.mem_cons_of_mem _ hf)) (fun f hf => hq2 f (by simp only [List.map_cons, List.zip_cons_cons]; exact List.mem_cons_of_mem _ hf))⟩
              obtain ⟨a1, a2⟩ := hq1 f List.mem_cons_self
              obtain ⟨b1, b2⟩ := hq2 (f.1, g) (by simp only [List.map_cons, List.zip_cons_cons]; exact List.mem_cons_self)
              obtain ⟨e1, e2, e3⟩ := hsq
              obtain ⟨pat, hpat, -⟩ := id a1
              by_cases hne : pat = []
              · subst hne
                rw [a1.empty hpat, Fine.empty b1 (by rw [← e1, hpat])]
              · have x1 := a2 pat hne hpat
                have x2 := b2 pat hne (by rw [← e1, hpat])
                rw [← e2] at x2
                exact C72_exact_unique x1 x2
        exact hsame _ _ h6 hq (fun f hf => ⟨h7 f (by rw [h5]; exact hf), h8 f (by rw [h5]; exact hf)⟩)
      · rfl
    intro i k w a b _ _ ha hb
    rw [looks_same key, hb, Option.some.injEq] at ha
    rw [ha]

/-! ## Sessions -/

/-- A query the search finds all matches of, or none at all. -/
def Plain (lower : CaseTable) (q : SearchQuery) : Prop :=
  q.chars = [] ∨ Regular lower (if q.caseSensitive then .exact else .caseInsensitive) q.chars ∧ q.wholeWords = false

/-- Setting queries, and showing or hiding highlights. -/
inductive SearchEvent (lower : CaseTable) (s : ViewSearch) : ViewSearch × Bool → Prop
  | set (queries : List SearchQuery) (res : ViewSearch × Bool) (hk : Known s queries) (hq : ∀ q ∈ queries, Plain lower q) (h : s.setFind queries = some res) :
      SearchEvent lower s res
  | highlight (visible : Bool) : SearchEvent lower s (s.highlightFind visible)

theorem fine_new {lower : CaseTable} {q : SearchQuery} {f : FindState} {t : List UInt8} (ha : Asks q f) (hp : Plain lower q) (ho : f.occurrences = []) : Fine lower t f := by
  obtain ⟨a1, a2, a3⟩ := ha
  refine ⟨q.chars, a1, ?_⟩
  rcases hp with hp | ⟨hp, hw⟩
  · exact .inr ⟨hp, ho⟩
  · left
    intro pat hpat
    rw [a1, Option.some.injEq] at hpat
    subst hpat
    rw [a2, a3, ho]
    exact ⟨hp, hw, List.Pairwise.nil, fun r hr => absurd hr List.not_mem_nil⟩

/-- What is true after such an event. -/
theorem event_ok {lower : CaseTable} {t : List UInt8} {s : ViewSearch} {res : ViewSearch × Bool} (he : SearchEvent lower s res) (hs : s.Ok)
    (hp : s.progress.Inside t.length) (hq : ∀ f ∈ s.finds, Fine lower t f.2) :
    res.1.Ok ∧ res.1.progress.Inside t.length ∧ (∀ f ∈ res.1.finds, Fine lower t f.2) ∧ (res.2 = false → res.1.shown = s.shown) := by
  cases he with
  | set queries res hk hpl h =>
    obtain ⟨s', dirty, e, h1, h2, h3, h4, h5, h6, h7, h8⟩ := C81_set hs hk
    rw [e, Option.some.injEq] at h
    subst h
    refine ⟨h1, ?_, ?_, fun hd => by rw [h7 hd]⟩
    · cases dirty with
      | false => rw [h7 rfl]; exact hp
      | true => rw [h8 rfl]; trivial
    · intro f hf
      rcases h6 f hf with h | h
      · exact hq f h
      · obtain ⟨q, q1, q2, -⟩ := h5 f hf
        exact fine_new q2 (hpl q q1) h
  | highlight visible => exact ⟨⟨hs.nodup, hs.le⟩, hp, hq, fun h => by cases h⟩

/-- A view with its searches, and its front end. -/
structure SearchState (U : Type) where
  search : ViewSearch
  view : ShownView
  client : List (Option (ScreenLine (List UInt8) (Look U)))

/-- What may happen: an event; a step of the search that changes no line the front end has; updates. -/
inductive SearchStep (lower : CaseTable) (r : Rope) (styles : List U) (m : Missing) : SearchState U → SearchState U → Prop
  | event (s : SearchState U) (res : ViewSearch × Bool) (v' : ShownView) (he : SearchEvent lower s.search res) (hv : (if res.2 then s.view.setDirty r else some s.view) = some v') :
      SearchStep lower r styles m s ⟨res.1, v', s.client⟩
  | batch (s : SearchState U) (first : Nat) (hf : first ≤ r.text.length) (s' : ViewSearch) (h : s.search.doFind lower false r first = some s')
      (hq : Quiet s.view r styles s.search.shown s'.shown) : SearchStep lower r styles m s { s with search := s' }
  | render (s : SearchState U) (firstLine height : Nat) (shadow' : LineCacheShadow) (ops : List (UpdateOp (List UInt8) (Look U)))
      (client' : List (Option (ScreenLine (List UInt8) (Look U))))
      (h : renderIfDirty (stateOf s.search.shown styles r s.view s.client).cur s.view.shadow firstLine height = some (shadow', ops))
      (hc : applyUpdate m s.client ops 0 = some client') : SearchStep lower r styles m s ⟨s.search, { s.view with shadow := shadow' }, client'⟩
  | request (s : SearchState U) (firstLine height a b : Nat) (hab : a < b) (shadow' : LineCacheShadow) (ops : List (UpdateOp (List UInt8) (Look U)))
      (client' : List (Option (ScreenLine (List UInt8) (Look U))))
      (h : viewRequestLines (stateOf s.search.shown styles r s.view s.client).cur s.view.shadow firstLine height a b = some (shadow', ops))
      (hc : applyUpdate m s.client ops 0 = some client') : SearchStep lower r styles m s ⟨s.search, { s.view with shadow := shadow' }, client'⟩

/-- The invariant of sessions. -/
structure SearchState.Sound (lower : CaseTable) (rule : WrapRule) (r : Rope) (styles : List U) (s : SearchState U) : Prop where
  wrap : WrapRun rule r s.view.lines
  ok : s.search.Ok
  inside : s.search.progress.Inside r.text.length
  fine : ∀ f ∈ s.search.finds, Fine lower r.text f.2
  good : (stateOf s.search.shown styles r s.view s.client).Good

theorem search_step {lower : CaseTable} (hl : lower.Ok) (hsize : r.text.length < 2 ^ 64 - 1) {s s' : SearchState U}
    (hs : s.Sound lower rule r styles) (h : SearchStep lower r styles m s s') : s'.Sound lower rule r styles := by
  cases h with
  | event res v' he hv =>
    obtain ⟨a1, a2, a3, a4⟩ := event_ok he hs.ok hs.inside hs.fine
    obtain ⟨v'', b1, b2, -, b3, -⟩ := C81_drawn hs.wrap hs.good a4
    rw [hv, Option.some.injEq] at b1
    subst b1
    exact ⟨by rw [b2]; exact hs.wrap, a1, a2, a3, b3⟩
  | batch first hf s' h hq =>
    obtain ⟨s'', qs', h1, h2, h3, h4, h5, h6, h7, -⟩ := C81_batch_safe hl hs.wrap.inv.agree.text hsize hf hs.ok hs.inside hs.fine
    rw [h, Option.some.injEq] at h1
    subst h1
    exact ⟨hs.wrap, h2, h4, h7, C81_quiet hs.good hq⟩
  | render firstLine height shadow' ops client' h hc =>
    exact ⟨hs.wrap, hs.ok, hs.inside, hs.fine, good_step hs.good (.render (m := m) _ firstLine height shadow' ops client' h hc)⟩
  | request firstLine height a b hab shadow' ops client' h hc =>
    exact ⟨hs.wrap, hs.ok, hs.inside, hs.fine, good_step hs.good (.request (m := m) _ firstLine height a b hab shadow' ops client' h hc)⟩

/-- Any number of steps. -/
inductive SearchRun (lower : CaseTable) (r : Rope) (styles : List U) (m : Missing) : SearchState U → SearchState U → Prop
  | refl (s : SearchState U) : SearchRun lower r styles m s s
  | step (s s' s'' : SearchState U) : SearchRun lower r styles m s s' → SearchStep lower r styles m s' s'' → SearchRun lower r styles m s s''

/-- **C81.** After any such session, beginning with a new view: each highlight is a match; and when the view is rendered, the front end shows the window with
what has been found, and has no line with other highlights. -/
theorem C81_session_partial {lower : CaseTable} (hl : lower.Ok) (hsize : r.text.length < 2 ^ 64 - 1) {L : LinesState} (hw : WrapRun rule r L) (sel : Selection)
    {s : SearchState U} (h : SearchRun lower r styles m ⟨.new, ⟨L, .allDirty (looks [] styles r.text L.breaks.text sel).length, sel⟩, []⟩ s)
    (firstLine height : Nat) : (∀ f ∈ s.search.finds, Fine lower r.text f.2) ∧ ∃ shadow' ops client',
      renderIfDirty (stateOf s.search.shown styles r s.view s.client).cur s.view.shadow firstLine height = some (shadow', ops) ∧
      applyUpdate m s.client ops 0 = some client' ∧
      Shown m (looks s.search.shown styles r.text s.view.lines.breaks.text s.view.selection) client'
        (fun i => min firstLine (stateOf s.search.shown styles r s.view s.client).cur.length ≤ i + 2 ∧
          i < min firstLine (stateOf s.search.shown styles r s.view s.client).cur.length + height + 2) := by
  have hs : s.Sound lower rule r styles := by
    generalize hg : SearchState.mk ViewSearch.new ⟨L, .allDirty (looks [] styles r.text L.breaks.text sel).length, sel⟩ [] = s0 at h
    induction h with
    | refl =>
      subst hg
      exact ⟨hw, ⟨List.nodup_nil, fun f hf => absurd hf List.not_mem_nil⟩, trivial, fun f hf => absurd hf List.not_mem_nil, good_allDirty looks_pos _⟩
    | step s' s'' _ hs ih => exact search_step hl hsize ih hs
  refine ⟨hs.fine, ?_⟩
  have hgood := hs.good
  obtain ⟨plan, p1, p2, p3, p4⟩ := RenderPlan.create_spec (stateOf s.search.shown styles r s.view s.client).cur.length firstLine height
  obtain ⟨sh, o, c, q1, q2, q3, q4, q5⟩ := good_sendUpdate (m := m) hgood (by omega) (p3 hgood.pos)
  refine ⟨sh, o, c, ?_, q2, q5.len, ?_, q5.valid⟩
  · unfold renderIfDirty
    rw [p1]
    exact q1
  · intro i c hi hc
    refine q5.window i c ?_ hc
    show (planLines plan)[i]? = some .render
    rw [p4 i (List.getElem?_eq_some_iff.1 hc).1, if_pos hi]

end

/-! ## The selection as a query -/

/-- **C81.** What is searched for is what is selected last, or the word at the cursor. -/
theorem C81_selected_text {r : Rope} (hr : r.Balanced) {sel : Selection} (hv : Valid r sel) {q : SelRegion} (hq : sel.getLast? = some q) :
    ∃ s e, selectedText r sel = some (some ((r.text.take e).drop s)) ∧ (q.start ≠ q.stop → s = q.lo ∧ e = q.hi) ∧
      (q.start = q.stop → Word.SelectStart r.text q.stop s ∧ Word.SelectEnd r.text q.stop e) := by
  have hok := hv.ok q (List.mem_of_getLast? hq)
  unfold selectedText
  rw [hq]
  simp only
  by_cases hc : q.start = q.stop
  · have hi : q.isCaret = true := by simp [SelRegion.isCaret, hc]
    have hhi : q.hi = q.stop := by simp [SelRegion.hi, hc]
    rw [if_neg (by rw [hi]; simp)]
    have hb : CharBoundary r.text q.stop := by rw [← hhi]; exact hok.hi
    rw [hhi]
    obtain ⟨c, e1, e2⟩ := new_stands hr (boundary_le hb)
    obtain ⟨c', s, e, e3, -, e4, e5⟩ := C45_select hr hb e2
    obtain ⟨h1, h2⟩ := select_start_le hr hb e4
    obtain ⟨h3, h4⟩ := select_end_ge hr hb e5
    have := C06_slice_to_cow r (.range s e) hr (by simp [Bounds.lo, Bounds.hi]; omega) h2 (by simpa [Bounds.hi] using h4)
    refine ⟨s, e, ?_, fun h => absurd hc h, fun _ => ⟨e4, e5⟩⟩
    simp only [e1, e3, Option.bind_eq_bind, Option.bind_some, this]
    rfl
  · have hi : q.isCaret = false := by simp [SelRegion.isCaret, hc]
    rw [if_pos hi]
    have hle : q.lo ≤ q.hi := by simp only [SelRegion.lo, SelRegion.hi]; omega
    have := C06_slice_to_cow r (.range q.lo q.hi) hr (by simpa [Bounds.lo, Bounds.hi] using hle) hok.lo (by simpa [Bounds.hi] using hok.hi)
    rw [this]
    exact ⟨q.lo, q.hi, rfl, fun _ => ⟨rfl, rfl⟩, fun h => absurd h hc⟩

/-- **C81.** It becomes the query, as a whole word: that of the view if it has one query, else another one; the view is drawn anew and the search begins. -/
theorem C81_selection {r : Rope} (hr : r.Balanced) {sel : Selection} (hv : Valid r sel) {s : ViewSearch} (hs : s.Ok) (caseSensitive : Bool) :
    ∃ s' str id f, selectedText r sel = some (some str) ∧ s.selectionForFind r sel caseSensitive = some (s', true) ∧ s'.Ok ∧ s'.progress = .started ∧ s'.visible = s.visible ∧
      Asks ⟨none, Find.chars str, caseSensitive, true⟩ f ∧
      ((∃ g, s.finds = [(id, g)]) ∧ s'.finds = [(id, f)] ∨ s.finds.length ≠ 1 ∧ s'.finds = s.finds ++ [(id, f)]) := by
  cases hl : sel.getLast? with
  | none => exact absurd (List.getLast?_eq_none_iff.1 hl) hv.some
  | some q =>
    obtain ⟨a, b, h1, -, -⟩ := C81_selected_text hr hv hl
    unfold selectionForFind
    simp only [h1, Option.bind_eq_bind, Option.bind_some]
    by_cases hone : s.finds.length = 1
    · obtain ⟨⟨id, g⟩, hx⟩ := List.length_eq_one_iff.1 hone
      rw [if_neg (by omega)]
      have hget : s.finds[0]? = some (id, g) := by rw [hx]; rfl
      obtain ⟨k1, k2, k3⟩ := setFind_spec g ⟨none, Find.chars ((r.text.take b).drop a), caseSensitive, true⟩
      obtain ⟨s1, c1, f1, b0, b1, b2, -⟩ := setAt_spec hs hget ⟨none, Find.chars ((r.text.take b).drop a), caseSensitive, true⟩
      have hset := setAt_eq hget ⟨none, Find.chars ((r.text.take b).drop a), caseSensitive, true⟩
      rw [b0, Option.some.injEq, Prod.mk.injEq] at hset
      have hf1 : s1.finds = [(id, (g.setFind (Find.chars ((r.text.take b).drop a)) caseSensitive true).1)] := by
        rw [hset.1]
        show s.finds.set 0 _ = _
        rw [hx]
        rfl
      refine ⟨{ s1 with progress := .started }, _, id, _, rfl, ?_, ⟨b1.nodup, b1.le⟩, rfl, b2, k1, .inl ⟨⟨g, hx⟩, hf1⟩⟩
      rw [hone]
      simp only [checkedSub, Nat.le_refl, if_true, Nat.sub_self, Option.bind_some, b0]
      rfl
    · rw [if_pos hone]
      have hlen : s.addFind.finds.length = s.finds.length + 1 := by simp [addFind]
      have hget : s.addFind.finds[s.finds.length]? = some (s.counter + 1, FindState.new) := by simp [addFind]
      have hsub : checkedSub s.addFind.finds.length 1 = some s.finds.length := by
        rw [hlen]
        simp [checkedSub]
      obtain ⟨k1, k2, k3⟩ := setFind_spec FindState.new ⟨none, Find.chars ((r.text.take b).drop a), caseSensitive, true⟩
      obtain ⟨s1, c1, f1, b0, b1, b2, -⟩ := setAt_spec (addFind_ok hs) hget ⟨none, Find.chars ((r.text.take b).drop a), caseSensitive, true⟩
      have hset := setAt_eq hget ⟨none, Find.chars ((r.text.take b).drop a), caseSensitive, true⟩
      rw [b0, Option.some.injEq, Prod.mk.injEq] at hset
      have hf1 : s1.finds = s.finds ++ [(s.counter + 1, (FindState.new.setFind (Find.chars ((r.text.take b).drop a)) caseSensitive true).1)] := by
        rw [hset.1]
        show (s.finds ++ [(s.counter + 1, FindState.new)]).set s.finds.length _ = _
        rw [List.set_append_right _ _ (Nat.le_refl _)]
        simp
      refine ⟨{ s1 with progress := .started }, _, s.counter + 1, _, rfl, ?_, ⟨b1.nodup, b1.le⟩, rfl, by rw [b2]; rfl, k1, .inr ⟨hone, hf1⟩⟩
      simp only [hsub, Option.bind_some, b0]
      rfl

/-! ## Cases -/

/-- **C81.** After `find` there is one query, with what was asked for; if the view had any, it has the number of the first. -/
theorem C81_find {s : ViewSearch} (hs : s.Ok) (chars : List Char) (caseSensitive wholeWords : Bool) :
    ∃ s' dirty id f, s.find chars caseSensitive wholeWords = some (s', dirty) ∧ s'.Ok ∧ s'.visible = s.visible ∧ s'.finds = [(id, f)] ∧
      Asks ⟨none, chars, caseSensitive, wholeWords⟩ f ∧ (∀ g ∈ s.finds.head?, g.1 = id) ∧ ((id, f) ∈ s.finds ∨ f.occurrences = []) ∧
      (dirty = false → s' = s) ∧ (dirty = true → s'.progress = .started) := by
  have hk : Known s [⟨s.finds.head?.map Prod.fst, chars, caseSensitive, wholeWords⟩] := by
    cases h : s.finds with
    | nil => exact ⟨by simp [idsOf], by simp [idsOf]⟩
    | cons f fs => exact ⟨by simp [idsOf], by simp [idsOf, h]⟩
  obtain ⟨s', dirty, h1, h2, h3, h4, -, h5, h6, h7, h8⟩ := C81_set hs hk
  obtain ⟨⟨id, f⟩, hx⟩ := List.length_eq_one_iff.1 h4
  obtain ⟨q, q1, q2, q3⟩ := h5 (id, f) (by rw [hx]; exact List.mem_singleton_self _)
  rw [List.mem_singleton.1 q1] at q2 q3
  refine ⟨s', dirty, id, f, h1, h2, h3, hx, q2, ?_, h6 (id, f) (by rw [hx]; exact List.mem_singleton_self _), h7, h8⟩
  intro g hg
  exact (q3 g.1 (by rw [Option.mem_def.1 hg]; rfl)).symm

/-- The numbers of the queries, and what they look for. -/
def brief (s : ViewSearch) : List (Nat × Option (List Char)) := s.finds.map fun f => (f.1, f.2.searchString)

/-- Two queries. -/
def twoQueries : ViewSearch := ⟨[(1, query ['a'] false [.new 0 1]), (2, query ['b'] false [.new 2 3])], 2, .ready, true⟩

theorem twoQueries_ok : twoQueries.Ok := ⟨by decide, by decide⟩

/-- One of two queries is kept, the other is removed, and another one is added. -/
example : Known twoQueries [⟨some 2, ['b'], true, false⟩, ⟨none, ['c'], true, false⟩] ∧
    (twoQueries.setFind [⟨some 2, ['b'], true, false⟩, ⟨none, ['c'], true, false⟩]).map (fun x => (brief x.1, x.2, x.1.shown.flatten)) =
      some ([(2, some ['b']), (3, some ['c'])], true, [.new 2 3]) := by
  refine ⟨⟨by decide, by decide⟩, by decide +kernel⟩

/-- C81 fails when the front end names a query that the view does not have: other queries are removed, but the view is not drawn anew (view.rs:1061-1064), and so the
front end keeps their highlights. -/
theorem C81_unknown_refuted : ∃ (s : ViewSearch) (queries : List SearchQuery), s.Ok ∧ (idsOf queries).Nodup ∧
    (s.setFind queries).map (fun x => (brief x.1, x.2, x.1.shown.flatten)) = some ([], false, []) ∧ s.shown.flatten ≠ [] := by
  refine ⟨twoQueries, [⟨some 7, ['a'], true, false⟩], twoQueries_ok, by decide, by decide +kernel, by decide⟩

/-- C81 fails when a query is named twice: as many queries as before, but one of them is removed (view.rs:1050-1055), and the view is not drawn anew. -/
theorem C81_twice_refuted : ∃ (s : ViewSearch) (queries : List SearchQuery), s.Ok ∧ (∀ id ∈ idsOf queries, id ∈ s.finds.map Prod.fst) ∧
    (s.setFind queries).map (fun x => (brief x.1, x.2, x.1.shown.flatten)) = some ([(1, some ['a'])], false, [.new 0 1]) ∧ s.shown.flatten = [.new 0 1, .new 2 3] := by
  refine ⟨twoQueries, [⟨some 1, ['a'], true, false⟩, ⟨some 1, ['a'], true, false⟩], twoQueries_ok, by decide, by decide +kernel, by decide⟩

/-- A new view of `r`, a search for `chars`, two steps of it, each one followed by drawing the lines from `firstLine`; then the user scrolls to line 0: what should be seen,
and what the front end has. -/
def scrolled (r : Rope) (chars : List Char) (firstLine : Nat) : Option (List (ScreenLine (List UInt8) (Look Nat)) × List (Option (ScreenLine (List UInt8) (Look Nat)))) := do
  let v := plainView r [.caret 0] (.allDirty 0)
  let show' (s : ViewSearch) := looks (U := Nat) s.shown [] r.text v.lines.breaks.text v.selection
  let (s, _) ← ViewSearch.new.find chars true false
  let (s, _) := s.highlightFind true
  let first ← offsetOfVisualLine v.lines.wraps v.lines.breaks r firstLine
  let s ← s.doFind someLower false r first
  let (shadow, ops) ← renderIfDirty (show' s) (.allDirty (show' s).length) firstLine 1
  let client ← applyUpdate .clear [] ops 0
  let s ← s.doFind someLower false r first
  let (shadow, ops) ← renderIfDirty (show' s) shadow firstLine 1
  let client ← applyUpdate .clear client ops 0
  let (_, ops) ← renderIfDirty (show' s) shadow 0 10
  let client ← applyUpdate .clear client ops 0
  return (show' s, client)

/-- From the first line on, the search shows what it should. -/
example : (scrolled (smallRope "a\nbbb\nc") ['a'] 0).map (fun p => (p.1.map (·.styles.highlights.flatten), p.2.map (·.map (·.styles.highlights.flatten)))) =
    some ([[(0, 1)], [], []], [some [(0, 1)], some [], some []]) := by decide +kernel

/-- C81 fails for what later steps of the search find on lines the front end has: nothing makes the view draw them anew (view.rs:1088-1150).  Here line 2 is the first one
in the window, so that line 0 is sent as well; "a" is found there in the second step. -/
theorem C81_above_refuted : ∃ (r : Rope) (chars : List Char) (firstLine : Nat), r.Balanced ∧
    (scrolled r chars firstLine).map (fun p => (p.1.map (·.styles.highlights.flatten), p.2.map (·.map (·.styles.highlights.flatten)))) =
      some ([[(0, 1)], [], []], [some [], some [], some []]) :=
  ⟨smallRope "a\nbbb\nc", ['a'], 2, small_balanced (by decide +kernel), by decide +kernel⟩

/-- What a search for the selection finds. -/
def selectionFound (r : Rope) (sel : Selection) : Option (List (Nat × Option (List Char)) × Selection) := do
  let (s, _) ← ViewSearch.new.selectionForFind r sel true
  let (s, _) := s.highlightFind true
  let s ← s.doFind someLower false r 0
  return (brief s, s.shown.flatten)

/-- The word at the cursor. -/
example : Valid (smallRope "foo bar foo") [.caret 1] ∧ selectionFound (smallRope "foo bar foo") [.caret 1] = some ([(1, some ['f', 'o', 'o'])], [.new 0 3, .new 8 11]) :=
  ⟨Valid.single (small_region (by decide +kernel) (by decide +kernel)), by decide +kernel⟩

/-- A selection is searched for as a whole word (view.rs:1040), even if it is none: then it is not even found where it is selected. -/
theorem C81_selection_refuted : ∃ (r : Rope) (sel : Selection), r.Balanced ∧ Valid r sel ∧ sel = [.new 1 4] ∧ selectionFound r sel = some ([(1, some ['o', 'o', 'b'])], []) :=
  ⟨smallRope "foobar", [.new 1 4], small_balanced (by decide +kernel), Valid.single (small_region (by decide +kernel) (by decide +kernel)), rfl, by decide +kernel⟩

/-- A session: two events, and a step of the search. -/
theorem three_steps {lower : CaseTable} {rule : WrapRule} {r : Rope} {s0 s1 s2 s3 : ViewSearch} {v : ShownView} {client : List (Option (ScreenLine (List UInt8) (Look Nat)))}
    {m : Missing} (hw : WrapRun rule r v.lines) (hg : (stateOf s0.shown [] r v client).Good)
    (h1 : SearchEvent lower s0 (s1, true)) (h2 : SearchEvent lower s1 (s2, true)) (h3 : s2.doFind lower false r 0 = some s3) :
    ∃ s : SearchState Nat, SearchRun lower r [] m ⟨s0, v, client⟩ s ∧ s.search = s3 := by
  obtain ⟨v1, a1, a2, -, a3, -⟩ := C81_drawn (find' := s1.shown) (dirty := true) hw hg (fun h => by cases h)
  obtain ⟨v2, b1, b2, -, b3, b4⟩ := C81_drawn (find' := s2.shown) (dirty := true) (by rw [a2]; exact hw) a3 (fun h => by cases h)
  exact ⟨⟨s3, v2, client⟩, .step _ _ _ (.step _ _ _ (.step _ _ _ (.refl _) (.event _ _ v1 h1 a1)) (.event _ _ v2 h2 b1)) (.batch ⟨s2, v2, client⟩ 0 (Nat.zero_le _) s3 h3 (b4 rfl _).1), rfl⟩

/-- A search for "foo", highlighted; the first step of it finds both. -/
example : ∃ s : SearchState Nat, SearchRun someLower (smallRope "foo bar foo") [] .clear
    ⟨.new, ⟨(plainView (smallRope "foo bar foo") [.caret 0] (.allDirty 0)).lines, .allDirty (looks (U := Nat) [] [] (smallRope "foo bar foo").text
      (plainView (smallRope "foo bar foo") [.caret 0] (.allDirty 0)).lines.breaks.text [.caret 0]).length, [.caret 0]⟩, []⟩ s ∧ s.search.shown = [[.new 0 3, .new 8 11]] := by
  have hr : (smallRope "foo bar foo").Balanced := small_balanced (by decide +kernel)
  have hw : WrapRun exampleRule (smallRope "foo bar foo") (plainView (smallRope "foo bar foo") [.caret 0] (.allDirty 0)).lines := .start exampleRule_ok hr (by decide +kernel)
  generalize (plainView (smallRope "foo bar foo") [.caret 0] (.allDirty 0)).lines = L at hw
  have hplain : ∀ q ∈ [(⟨none, ['f', 'o', 'o'], true, false⟩ : SearchQuery)], Plain someLower q := by
    intro q hq
    rw [List.mem_singleton.1 hq]
    exact .inr ⟨by simp [Regular], rfl⟩
  have e2 : ∃ s2, (ViewSearch.new.highlightFind true).1.setFind [⟨none, ['f', 'o', 'o'], true, false⟩] = some (s2, true) ∧
      ∃ s3, s2.doFind someLower false (smallRope "foo bar foo") 0 = some s3 ∧ s3.shown = [[.new 0 3, .new 8 11]] := by
    refine ⟨⟨[(1, (FindState.new.setFind ['f', 'o', 'o'] true false).1)], 1, .started, true⟩, rfl, ?_⟩
    have h : ((⟨[(1, (FindState.new.setFind ['f', 'o', 'o'] true false).1)], 1, .started, true⟩ : ViewSearch).doFind someLower false (smallRope "foo bar foo") 0).map shown =
        some [[.new 0 3, .new 8 11]] := by decide +kernel
    exact Option.map_eq_some_iff.1 h
  obtain ⟨s2, h2, s3, h3, h4⟩ := e2
  obtain ⟨s, a, b⟩ := three_steps (m := .clear) (v := ⟨L, .allDirty (looks (U := Nat) [] [] (smallRope "foo bar foo").text L.breaks.text [.caret 0]).length, [.caret 0]⟩) (client := []) hw
    (good_allDirty looks_pos _) (.highlight true) (.set _ _ ⟨by decide, by decide⟩ hplain h2) h3
  exact ⟨s, a, by rw [b]; exact h4⟩

end ViewSearch

end Xi
