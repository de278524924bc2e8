import Verif.Spec.Scopes

/-!
# Lemmas about the plugin for syntax highlighting
-/

namespace Xi

namespace Syntect

set_option linter.unusedSectionVars false

variable {σ P : Type} [DecidableEq σ]

/-! ## The trie -/

/-- The number of a stack below a node. -/
def Node.find : List σ → Node σ → Option Nat
  | [], n => n.value
  | s :: rest, n => Node.find rest (n.childFor s)

theorem Node.childFor_setChild (n : Node σ) (s t : σ) (c : Node σ) : (n.setChild s c).childFor t = if t = s then c else n.childFor t := by
  simp only [Node.childFor, Node.setChild, Node.children, List.lookup]
  by_cases h : t = s
  · simp [h]
  · have : (t == s) = false := by simpa using h
    simp [h, this]

theorem Node.find_setChild (n : Node σ) (s : σ) (c : Node σ) (q : List σ) :
    Node.find q (n.setChild s c) = match q with
      | [] => n.value
      | t :: rest => if t = s then Node.find rest c else Node.find (t :: rest) n := by
  cases q with
  | nil => rfl
  | cons t rest =>
    simp only [Node.find, Node.childFor_setChild]
    split <;> rfl

theorem Node.find_empty (q : List σ) : Node.find q (.mk none [] : Node σ) = none := by
  induction q with
  | nil => rfl
  | cons s rest ih => simpa [Node.find, Node.childFor, Node.children, List.lookup] using ih

theorem Node.find_value (q : List σ) (v : Option Nat) (n : Node σ) : Node.find q (.mk v n.children) = if q = [] then v else Node.find q n := by
  cases q with
  | nil => rfl
  | cons t rest => simp [Node.find, Node.childFor, Node.children]

theorem Node.childFor_of {n : Node σ} {s : σ} {c : Node σ} (h : n.children.lookup s = some c) : n.childFor s = c := by
  simp [Node.childFor, h]

theorem Node.childFor_none {n : Node σ} {s : σ} (h : n.children.lookup s = none) : n.childFor s = .mk none [] := by
  simp [Node.childFor, h]

theorem Node.getValue_spec (id : Nat) : ∀ (stack : List σ) (n : Node σ), stack ≠ [] →
    (∀ v, Node.find stack n = some v → ∃ n', n.getValue stack id = some (n', .existing v) ∧ ∀ q, Node.find q n' = Node.find q n)
    ∧ (Node.find stack n = none → ∃ n', n.getValue stack id = some (n', .new id) ∧ ∀ q, Node.find q n' = if q = stack then some id else Node.find q n)
  | [], _, h => absurd rfl h
  | [first], n, _ => by
    rw [Node.getValue]
    cases hl : n.children.lookup first with
    | none =>
      have hc := Node.childFor_none hl
      refine ⟨?_, ?_⟩
      · intro v hv
        rw [Node.find, hc] at hv
        cases hv
      · intro _
        refine ⟨_, rfl, ?_⟩
        intro q
        rw [Node.find_setChild]
        cases q with
        | nil => rfl
        | cons t rest =>
          by_cases ht : t = first
          · subst ht
            cases rest with
            | nil => simp [Node.find, Node.value]
            | cons u r =>
              simp only [if_true, List.cons.injEq, reduceCtorEq, and_false, if_false]
              rw [Node.find, Node.find, hc]
              rfl
          · simp [ht]
    | some c =>
      have hc := Node.childFor_of hl
      cases hv : c.value with
      | none =>
        refine ⟨?_, ?_⟩
        · intro v h
          rw [Node.find, hc, Node.find, hv] at h
          cases h
        · intro _
          refine ⟨n.setChild first (.mk (some id) c.children), by simp only [hv], ?_⟩
          intro q
          rw [Node.find_setChild]
          cases q with
          | nil => rfl
          | cons t rest =>
            by_cases ht : t = first
            · subst ht
              simp only [if_true]
              rw [Node.find_value, Node.find, hc]
              cases rest <;> simp
            · simp [ht]
      | some v =>
        refine ⟨?_, ?_⟩
        · intro w h
          rw [Node.find, hc, Node.find, hv] at h
          cases h
          exact ⟨n, by simp only [hv], fun _ => rfl⟩
        · intro h
          rw [Node.find, hc, Node.find, hv] at h
          cases h
  | first :: second :: rest, n, _ => by
    have ih := Node.getValue_spec id (second :: rest) (n.childFor first) (by simp)
    rw [Node.getValue.eq_def]
    refine ⟨?_, ?_⟩
    · intro v hv
      obtain ⟨c, hg, hq⟩ := ih.1 v hv
      refine ⟨n.setChild first c, by simp only [hg], ?_⟩
      intro q
      rw [Node.find_setChild]
      cases q with
      | nil => rfl
      | cons t r =>
        by_cases ht : t = first
        · subst ht
          simp only [if_true, hq]
          rfl
        · simp [ht]
    · intro hv
      obtain ⟨c, hg, hq⟩ := ih.2 hv
      refine ⟨n.setChild first c, by simp only [hg], ?_⟩
      intro q
      rw [Node.find_setChild]
      cases q with
      | nil => rfl
      | cons t r =>
        by_cases ht : t = first
        · subst ht
          simp only [if_true, hq, List.cons.injEq, true_and]
          rfl
        · simp [ht]

/-- The map numbers just the stacks of the table. -/
structure Numbered (m : StackMap σ) (table : List (List σ)) : Prop where
  next : m.nextId = table.length
  find : ∀ q i, Node.find q m.scopes = some i ↔ table[i]? = some q

theorem Numbered.empty : Numbered ({} : StackMap σ) [] := ⟨rfl, by intro q i; simp [Node.find_empty]⟩

theorem Numbered.getValue {m : StackMap σ} {table : List (List σ)} (hm : Numbered m table) {stack : List σ} (hs : stack ≠ []) :
    (∃ m' id, m.getValue stack = some (m', .existing id) ∧ Numbered m' table ∧ table[id]? = some stack)
    ∨ (∃ m', m.getValue stack = some (m', .new table.length) ∧ Numbered m' (table ++ [stack]) ∧ ¬ stack ∈ table) := by
  have h := Node.getValue_spec m.nextId stack m.scopes hs
  cases hf : Node.find stack m.scopes with
  | some v =>
    obtain ⟨n, hg, hq⟩ := h.1 v hf
    exact .inl ⟨⟨m.nextId, n⟩, v, by rw [StackMap.getValue, hg], ⟨hm.next, fun q i => by rw [hq]; exact hm.find q i⟩, (hm.find _ _).1 hf⟩
  | none =>
    obtain ⟨n, hg, hq⟩ := h.2 hf
    have hnot : ¬ stack ∈ table := by
      intro hin
      obtain ⟨i, hi, he⟩ := List.getElem_of_mem hin
      have := (hm.find stack i).2 (by rw [List.getElem?_eq_getElem hi, he])
      rw [hf] at this
      cases this
    refine .inr ⟨⟨m.nextId + 1, n⟩, by rw [StackMap.getValue, hg, ← hm.next], ⟨by simp [hm.next], ?_⟩, hnot⟩
    intro q i
    rw [hq]
    by_cases he : q = stack
    · subst he
      rw [if_pos rfl, hm.next]
      constructor
      · intro h
        cases h
        simp
      · intro h
        rcases Nat.lt_trichotomy i table.length with hi | hi | hi
        · rw [List.getElem?_append_left hi] at h
          exact absurd (List.mem_of_getElem? h) hnot
        · rw [hi]
        · rw [List.getElem?_eq_none (by simp; omega)] at h
          cases h
    · rw [if_neg he, hm.find]
      rcases Nat.lt_trichotomy i table.length with hi | hi | hi
      · rw [List.getElem?_append_left hi]
      · subst hi
        simp [Ne.symm he]
      · rw [List.getElem?_eq_none (by omega), List.getElem?_eq_none (by simp; omega)]

theorem Numbered.nodup {m : StackMap σ} {table : List (List σ)} (hm : Numbered m table) {i j : Nat} {q : List σ}
    (hi : table[i]? = some q) (hj : table[j]? = some q) : i = j := by
  have h := (hm.find q i).2 hi
  rw [(hm.find q j).2 hj] at h
  cases h
  rfl

/-! ## Spans -/

/-- The spans show the scopes. -/
structure Drawn (table : List (List σ)) (spans : List ScopeSpan) (bytes : List (Option (List σ))) : Prop where
  shows : ∀ x, x < bytes.length → bytes[x]? = some (spanAt table spans x)
  inside : ∀ s ∈ spans, s.stop ≤ bytes.length
  known : ∀ s ∈ spans, s.id < table.length

theorem Drawn.nil (table : List (List σ)) : Drawn table [] [] := ⟨by simp, by simp, by simp⟩

theorem Drawn.eq {table : List (List σ)} {spans : List ScopeSpan} {bytes : List (Option (List σ))} (h : Drawn table spans bytes) :
    (List.range bytes.length).map (spanAt table spans) = bytes := by
  apply List.ext_getElem?
  intro x
  by_cases hx : x < bytes.length
  · rw [h.shows x hx]
    simp [hx]
  · rw [List.getElem?_eq_none (by simpa using hx), List.getElem?_eq_none (by simpa using hx)]

theorem Drawn.more {table : List (List σ)} {spans : List ScopeSpan} {bytes : List (Option (List σ))} (h : Drawn table spans bytes) (extra : List (List σ)) :
    Drawn (table ++ extra) spans bytes := by
  refine ⟨?_, h.inside, fun s hs => by have := h.known s hs; simp; omega⟩
  intro x hx
  rw [h.shows x hx]
  congr 1
  unfold spanAt
  cases hf : spans.find? (fun s => s.start ≤ x && x < s.stop) with
  | none => rfl
  | some s =>
    have := h.known s (List.mem_of_find?_eq_some hf)
    simp only [Option.bind_some]
    rw [List.getElem?_append_left this]

theorem spanAt_beyond {spans : List ScopeSpan} {n x : Nat} (hi : ∀ s ∈ spans, s.stop ≤ n) (hx : n ≤ x) :
    spans.find? (fun s => s.start ≤ x && x < s.stop) = none := by
  rw [List.find?_eq_none]
  intro s hs
  have := hi s hs
  simp
  omega

theorem Drawn.gap {table : List (List σ)} {spans : List ScopeSpan} {bytes : List (Option (List σ))} (h : Drawn table spans bytes) (k : Nat) :
    Drawn table spans (bytes ++ List.replicate k none) := by
  refine ⟨?_, fun s hs => by have := h.inside s hs; simp; omega, h.known⟩
  intro x hx
  by_cases hb : x < bytes.length
  · rw [List.getElem?_append_left hb, h.shows x hb]
  · rw [List.getElem?_append_right (by omega), spanAt, spanAt_beyond h.inside (by omega)]
    rw [List.length_append, List.length_replicate] at hx
    rw [List.getElem?_replicate_of_lt (by omega)]
    rfl

theorem Drawn.push {table : List (List σ)} {spans : List ScopeSpan} {bytes : List (Option (List σ))} (h : Drawn table spans bytes) (k : Nat)
    {id : Nat} {stack : List σ} (hid : table[id]? = some stack) :
    Drawn table (spans ++ [⟨bytes.length, bytes.length + k, id⟩]) (bytes ++ List.replicate k (some stack)) := by
  refine ⟨?_, ?_, ?_⟩
  · intro x hx
    by_cases hb : x < bytes.length
    · rw [List.getElem?_append_left hb, h.shows x hb]
      congr 1
      unfold spanAt
      rw [List.find?_append]
      have : ([(⟨bytes.length, bytes.length + k, id⟩ : ScopeSpan)].find? (fun s => s.start ≤ x && x < s.stop)) = none := by
        rw [List.find?_eq_none]
        intro s hs
        rw [List.mem_singleton] at hs
        subst hs
        simp
        omega
      rw [this, Option.or_none]
    · rw [List.getElem?_append_right (by omega), spanAt, List.find?_append, spanAt_beyond h.inside (by omega)]
      simp at hx
      have h1 : x - bytes.length < k := by omega
      have h2 : bytes.length ≤ x := by omega
      simp [h1, h2, hx, hid]
  · intro s hs
    rw [List.mem_append, List.mem_singleton] at hs
    rcases hs with hs | hs
    · have := h.inside s hs
      simp
      omega
    · subst hs
      simp
  · intro s hs
    rw [List.mem_append, List.mem_singleton] at hs
    rcases hs with hs | hs
    · exact h.known s hs
    · subst hs
      exact (List.getElem?_eq_some_iff.1 hid).1

/-- A stack as it is shown. -/
def tag (s : List σ) : Option (List σ) := if s.isEmpty then none else some s

/-- The scopes of a line from `prev` on, piece by piece. -/
def pieces (len : Nat) : List (Nat × (List σ → List σ)) → List σ → Nat → List (Option (List σ))
  | [], stack, prev => List.replicate (len - prev) (tag stack)
  | (c, f) :: ops, stack, prev => List.replicate (c - prev) (tag stack) ++ pieces len ops (f stack) c

theorem pieces_eq (len : Nat) : ∀ (ops : List (Nat × (List σ → List σ))) (stack : List σ) (prev : Nat),
    prev ≤ len → (ops.map Prod.fst).Pairwise (· ≤ ·) → (∀ o ∈ ops, prev ≤ o.1 ∧ o.1 ≤ len) →
    pieces len ops stack prev = (List.range' prev (len - prev)).map (fun x => tag (stackAt ops stack x))
  | [], stack, prev, _, _, _ => by
    simp only [pieces, stackAt, List.filter_nil, List.foldl_nil]
    rw [List.map_const', List.length_range']
  | (c, f) :: ops, stack, prev, hp, hs, hi => by
    have hc := hi (c, f) (List.mem_cons_self ..)
    simp only at hc
    rw [List.map_cons, List.pairwise_cons] at hs
    have hge : ∀ o ∈ ops, c ≤ o.1 := fun o ho => hs.1 o.1 (List.mem_map_of_mem ho)
    rw [pieces, pieces_eq len ops (f stack) c hc.2 hs.2 (fun o ho => ⟨hge o ho, (hi o (List.mem_cons_of_mem _ ho)).2⟩)]
    have : List.range' prev (len - prev) = List.range' prev (c - prev) ++ List.range' c (len - c) := by
      have h1 : len - prev = (c - prev) + (len - c) := by omega
      have h2 : c = prev + 1 * (c - prev) := by omega
      conv => lhs; rw [h1, ← List.range'_append]
      rw [← h2]
    rw [this, List.map_append]
    congr 1
    · rw [← List.length_range' (s := prev) (n := c - prev) (step := 1), ← List.map_const']
      rw [List.length_range']
      apply List.map_congr_left
      intro x hx
      rw [List.mem_range'_1] at hx
      rw [stackAt, List.filter_eq_nil_iff.2]
      · rfl
      · intro o ho
        rcases List.mem_cons.1 ho with ho | ho
        · subst ho
          simp
          omega
        · have := hge o ho
          simp
          omega
    · apply List.map_congr_left
      intro x hx
      rw [List.mem_range'_1] at hx
      simp only [stackAt]
      rw [List.filter_cons_of_pos (by simp; omega), List.foldl_cons]

theorem pieces_line {parser : Parser P σ} {stackOf : P → List σ} (hp : parser.Ok stackOf) (p : P) (stack : List σ) (line : List UInt8) :
    pieces line.length (parser.parse p line).2 stack 0 = scopesOf parser p stack line := by
  rw [pieces_eq _ _ _ _ (Nat.zero_le _) (hp.sorted p line) (fun o ho => ⟨Nat.zero_le _, hp.inside p line o ho⟩), scopesOf, List.range_eq_range', Nat.sub_zero]
  rfl

theorem scopesOf_length (parser : Parser P σ) (p : P) (stack : List σ) (line : List UInt8) : (scopesOf parser p stack line).length = line.length := by
  simp [scopesOf]

/-! ## Sessions -/

/-- The table the core has after some messages. -/
def tableOf : List (Msg σ) → List (List σ)
  | [] => []
  | .addScopes scopes :: ms => scopes ++ tableOf ms
  | .updateSpans .. :: ms => tableOf ms

theorem tableOf_append : ∀ a b : List (Msg σ), tableOf (a ++ b) = tableOf a ++ tableOf b
  | [], _ => rfl
  | .addScopes scopes :: ms, b => by simp [tableOf, tableOf_append ms b]
  | .updateSpans .. :: ms, b => by simp [tableOf, tableOf_append ms b]

theorem decode_append : ∀ (table : List (List σ)) (a b : List (Msg σ)), decode table (a ++ b) = decode table a ++ decode (table ++ tableOf a) b
  | table, [], b => by simp [decode, tableOf]
  | table, .addScopes scopes :: ms, b => by simp [decode, tableOf, decode_append (table ++ scopes) ms b]
  | table, .updateSpans .. :: ms, b => by simp [decode, tableOf, decode_append table ms b]

/-- The plugin is in step with one that sends the scopes themselves. -/
structure InStep (st : PluginState P σ) (i : Ideal P σ) : Prop where
  numbered : Numbered st.idents (tableOf st.sent ++ st.newScopes)
  initial : st.initial = i.initial
  start : st.spansStart = i.start
  offset : st.offset = i.start + i.scopes.length
  sent : decode [] st.sent = i.sent
  drawn : Drawn (tableOf st.sent ++ st.newScopes) st.spans i.scopes

theorem InStep.identifier {st : PluginState P σ} {i : Ideal P σ} (h : InStep st i) {stack : List σ} (hs : stack ≠ []) :
    ∃ st' id, st.identifier stack = some (st', id) ∧ InStep st' i ∧ (tableOf st'.sent ++ st'.newScopes)[id]? = some stack
      ∧ st'.spans = st.spans ∧ st'.sent = st.sent := by
  rcases h.numbered.getValue hs with ⟨m, id, hg, hn, hid⟩ | ⟨m, hg, hn, hnot⟩
  · exact ⟨{ st with idents := m }, id, by rw [PluginState.identifier, hg], ⟨hn, h.initial, h.start, h.offset, h.sent, h.drawn⟩, hid, rfl, rfl⟩
  · refine ⟨{ st with idents := m, newScopes := st.newScopes ++ [stack] }, _, by rw [PluginState.identifier, hg],
      ⟨?_, h.initial, h.start, h.offset, h.sent, ?_⟩, ?_, rfl, rfl⟩
    · simpa using hn
    · simpa using h.drawn.more [stack]
    · simp

/-- In the middle of a line: the scopes up to `prev` have been drawn. -/
structure InLine (st : PluginState P σ) (i : Ideal P σ) (done : List (Option (List σ))) : Prop where
  numbered : Numbered st.idents (tableOf st.sent ++ st.newScopes)
  initial : st.initial = i.initial
  start : st.spansStart = i.start
  offset : st.offset = i.start + i.scopes.length
  sent : decode [] st.sent = i.sent
  drawn : Drawn (tableOf st.sent ++ st.newScopes) st.spans (i.scopes ++ done)

theorem InLine.identifier {st : PluginState P σ} {i : Ideal P σ} {done : List (Option (List σ))} (h : InLine st i done) {stack : List σ} (hs : stack ≠ []) :
    ∃ st' id, st.identifier stack = some (st', id) ∧ InLine st' i done ∧ (tableOf st'.sent ++ st'.newScopes)[id]? = some stack := by
  rcases h.numbered.getValue hs with ⟨m, id, hg, hn, hid⟩ | ⟨m, hg, hn, hnot⟩
  · exact ⟨{ st with idents := m }, id, by rw [PluginState.identifier, hg], ⟨hn, h.initial, h.start, h.offset, h.sent, h.drawn⟩, hid⟩
  · refine ⟨{ st with idents := m, newScopes := st.newScopes ++ [stack] }, _, by rw [PluginState.identifier, hg],
      ⟨?_, h.initial, h.start, h.offset, h.sent, ?_⟩, ?_⟩
    · simpa using hn
    · simpa using h.drawn.more [stack]
    · simp

theorem InLine.push {st : PluginState P σ} {i : Ideal P σ} {done : List (Option (List σ))} (h : InLine st i done) {prev cursor id : Nat} {stack : List σ}
    (hd : done.length = prev) (hc : prev ≤ cursor) (hid : (tableOf st.sent ++ st.newScopes)[id]? = some stack) (always : Bool) :
    ∃ st', st.pushSpan prev cursor id always = some st' ∧ InLine st' i (done ++ List.replicate (cursor - prev) (some stack)) := by
  have ho := h.offset
  have hst := h.start
  rw [PluginState.pushSpan, if_neg (by omega)]
  by_cases hk : cursor - prev = 0
  · have hp : InLine { st with spans := st.spans ++ [⟨st.offset - st.spansStart + prev, st.offset - st.spansStart + prev + (cursor - prev), id⟩] } i
        (done ++ List.replicate (cursor - prev) (some stack)) := by
      refine ⟨h.numbered, h.initial, h.start, h.offset, h.sent, ?_⟩
      have := h.drawn.push (cursor - prev) hid
      rw [List.append_assoc] at this
      have he : st.offset - st.spansStart + prev = (i.scopes ++ done).length := by rw [List.length_append]; omega
      rw [he]
      exact this
    simp only [hk, Nat.add_zero, ne_eq, not_true_eq_false, or_false]
    simp only [hk, Nat.add_zero] at hp
    split
    · exact ⟨_, rfl, hp⟩
    · exact ⟨_, rfl, by simpa using h⟩
  · simp only
    rw [if_pos (by right; omega)]
    refine ⟨_, rfl, h.numbered, h.initial, h.start, h.offset, h.sent, ?_⟩
    have := h.drawn.push (cursor - prev) hid
    rw [List.append_assoc] at this
    have he : st.offset - st.spansStart + prev = (i.scopes ++ done).length := by rw [List.length_append]; omega
    rw [he]
    exact this

/-- The loop over what happens in a line draws the scopes up to the last of it. -/
theorem InLine.loop (len : Nat) {i : Ideal P σ} : ∀ (ops : List (Nat × (List σ → List σ))) (st : PluginState P σ) (stack : List σ) (prev : Nat) (done : List (Option (List σ))),
    InLine st i done → done.length = prev → prev ≤ len → (ops.map Prod.fst).Pairwise (· ≤ ·) → (∀ o ∈ ops, prev ≤ o.1 ∧ o.1 ≤ len) →
    ∃ st' prev' done', PluginState.spanLoop true ops st stack prev = some (st', stackAfter ops stack, prev') ∧ InLine st' i done'
      ∧ done'.length = prev' ∧ prev' ≤ len ∧ done' ++ List.replicate (len - prev') (tag (stackAfter ops stack)) = done ++ pieces len ops stack prev
  | [], st, stack, prev, done, h, hd, hl, _, _ => ⟨st, prev, done, rfl, h, hd, hl, rfl⟩
  | (c, f) :: ops, st, stack, prev, done, h, hd, hl, hs, hi => by
    have hc := hi (c, f) (List.mem_cons_self ..)
    simp only at hc
    rw [List.map_cons, List.pairwise_cons] at hs
    have hge : ∀ o ∈ ops, c ≤ o.1 := fun o ho => hs.1 o.1 (List.mem_map_of_mem ho)
    have hstep : ∃ st', st.spanStep true stack prev c = some st'
        ∧ InLine st' i (done ++ List.replicate (c - prev) (tag stack)) := by
      cases stack with
      | nil => exact ⟨st, rfl, h.numbered, h.initial, h.start, h.offset, h.sent, by rw [← List.append_assoc]; exact h.drawn.gap _⟩
      | cons s rest =>
        obtain ⟨st1, id, hg, h1, hid⟩ := h.identifier (stack := s :: rest) (by simp)
        obtain ⟨st2, hp, h2⟩ := h1.push hd hc.1 hid false
        refine ⟨st2, ?_, h2⟩
        simp [PluginState.spanStep, hg, hp]
    obtain ⟨st1, he, h1⟩ := hstep
    obtain ⟨st2, prev2, done2, hr, h2, hd2, hl2, hp⟩ := InLine.loop len ops st1 (f stack) c _ h1
      (by rw [List.length_append, List.length_replicate]; omega) hc.2 hs.2 (fun o ho => ⟨hge o ho, (hi o (List.mem_cons_of_mem _ ho)).2⟩)
    refine ⟨st2, prev2, done2, ?_, h2, hd2, hl2, ?_⟩
    · rw [PluginState.spanLoop, he]
      exact hr
    · rw [pieces, ← List.append_assoc, ← hp]
      rfl

/-- Looking at the syntax without drawing changes only the numbers. -/
theorem InStep.look (len : Nat) {i : Ideal P σ} : ∀ (ops : List (Nat × (List σ → List σ))) (st : PluginState P σ) (stack : List σ) (prev : Nat),
    InStep st i → prev ≤ len → (ops.map Prod.fst).Pairwise (· ≤ ·) → (∀ o ∈ ops, prev ≤ o.1 ∧ o.1 ≤ len) →
    ∃ st' prev', PluginState.spanLoop false ops st stack prev = some (st', stackAfter ops stack, prev') ∧ InStep st' i
  | [], st, stack, prev, h, _, _, _ => ⟨st, prev, rfl, h⟩
  | (c, f) :: ops, st, stack, prev, h, hl, hs, hi => by
    have hc := hi (c, f) (List.mem_cons_self ..)
    simp only at hc
    rw [List.map_cons, List.pairwise_cons] at hs
    have hge : ∀ o ∈ ops, c ≤ o.1 := fun o ho => hs.1 o.1 (List.mem_map_of_mem ho)
    have hstep : ∃ st', st.spanStep false stack prev c = some st'
        ∧ InStep st' i := by
      cases stack with
      | nil => exact ⟨st, rfl, h⟩
      | cons s rest =>
        obtain ⟨st1, id, hg, h1, hid, -⟩ := h.identifier (stack := s :: rest) (by simp)
        refine ⟨st1, ?_, h1⟩
        have ho := h1.offset
        have hst := h1.start
        have hno : ¬ (st1.offset < st1.spansStart ∨ c < prev) := by omega
        simp [PluginState.spanStep, hg, hno]
    obtain ⟨st1, he, h1⟩ := hstep
    obtain ⟨st2, prev2, hr, h2⟩ := InStep.look len ops st1 (f stack) c h1 hc.2 hs.2 (fun o ho => ⟨hge o ho, (hi o (List.mem_cons_of_mem _ ho)).2⟩)
    refine ⟨st2, prev2, ?_, h2⟩
    rw [PluginState.spanLoop, he]
    exact hr

theorem InStep.flush {st : PluginState P σ} {i : Ideal P σ} (h : InStep st i) : ∃ st', st.flushSpans = some st' ∧ InStep st' i.flush ∧ st'.newScopes = [] := by
  have key : ∃ st1 : PluginState P σ, (if st.newScopes.isEmpty then st else { st with sent := st.sent ++ [.addScopes st.newScopes], newScopes := [] }) = st1
      ∧ InStep st1 i ∧ st1.newScopes = [] := by
    refine ⟨_, rfl, ?_, ?_⟩
    · cases hn : st.newScopes with
      | nil => simpa using h
      | cons a b =>
        simp only [List.isEmpty_cons, Bool.false_eq_true, if_false]
        refine ⟨?_, h.initial, h.start, h.offset, ?_, ?_⟩
        · have := h.numbered
          rw [hn] at this
          simpa [tableOf_append, tableOf] using this
        · rw [decode_append, h.sent]
          simp [decode]
        · have := h.drawn
          rw [hn] at this
          simpa [tableOf_append, tableOf] using this
    · cases hn : st.newScopes <;> simp [hn]
  obtain ⟨st1, he, h1, hn⟩ := key
  have ho := h1.offset
  have hs := h1.start
  rw [PluginState.flushSpans]
  simp only [he]
  rw [Ideal.flush]
  by_cases hz : i.scopes = []
  · have hlen : i.scopes.length = 0 := by rw [hz]; rfl
    rw [if_neg (by omega), if_pos (by simp [hz])]
    refine ⟨_, rfl, ⟨h1.numbered, h1.initial, ?_, h1.offset, h1.sent, h1.drawn⟩, hn⟩
    show st1.offset = i.start
    omega
  · have hlen : i.scopes.length ≠ 0 := by rw [ne_eq, List.length_eq_zero_iff]; exact hz
    rw [if_pos (by omega), if_neg (by omega), if_neg (by simpa using hz)]
    refine ⟨_, rfl, ⟨?_, h1.initial, ?_, ?_, ?_, ?_⟩, hn⟩
    · simpa [tableOf_append, tableOf] using h1.numbered
    · exact ho
    · show st1.offset = i.start + i.scopes.length + 0
      omega
    · show decode [] (st1.sent ++ _) = i.sent ++ _
      rw [decode_append, h1.sent]
      simp only [decode, List.nil_append]
      congr 2
      have hd := h1.drawn
      rw [hn, List.append_nil] at hd
      have : st1.offset - st1.spansStart = i.scopes.length := by omega
      rw [this, hd.eq, hs]
    · exact Drawn.nil _

/-- A line is drawn. -/
theorem InStep.compute {parser : Parser P σ} {stackOf : P → List σ} (hp : parser.Ok stackOf) {st : PluginState P σ} {i : Ideal P σ} (h : InStep st i)
    (line : List UInt8) {state : Option (P × List σ)} {p : P}
    (hstate : state.or (st.initial.map (fun p => (p, []))) = some (p, stackOf p)) :
    ∃ st', st.computeSyntax parser line state true = some (st', ((parser.parse p line).1, stackOf (parser.parse p line).1))
      ∧ InStep { st' with offset := st'.offset + line.length } { i with scopes := i.scopes ++ scopesOf parser p (stackOf p) line } := by
  have hl : InLine st i [] := ⟨h.numbered, h.initial, h.start, h.offset, h.sent, by simpa using h.drawn⟩
  obtain ⟨st1, prev, done, hr, h1, hd, hle, he⟩ := InLine.loop line.length (parser.parse p line).2 st (stackOf p) 0 [] hl rfl (Nat.zero_le _)
    (hp.sorted p line) (fun o ho => ⟨Nat.zero_le _, hp.inside p line o ho⟩)
  have hne := hp.scopedEnd p line
  obtain ⟨st2, id, hg, h2, hid⟩ := h1.identifier hne
  obtain ⟨st3, hpu, h3⟩ := h2.push hd hle hid true
  have htag : tag (stackAfter (parser.parse p line).2 (stackOf p)) = some (stackAfter (parser.parse p line).2 (stackOf p)) := by
    rw [tag, if_neg (by simpa using hne)]
  rw [htag, List.nil_append, pieces_line hp] at he
  rw [he] at h3
  refine ⟨st3, ?_, h3.numbered, h3.initial, h3.start, ?_, h3.sent, h3.drawn⟩
  · rw [PluginState.computeSyntax]
    simp only [hstate, Option.bind_eq_bind, Option.bind_some, hr, if_true, hg, hpu]
    rw [hp.follows]
    rfl
  · show st3.offset + line.length = i.start + (i.scopes ++ _).length
    rw [List.length_append, scopesOf_length, h3.offset]
    omega

/-- The syntax is looked at. -/
theorem InStep.metadata {parser : Parser P σ} {stackOf : P → List σ} (hp : parser.Ok stackOf) {st : PluginState P σ} {i : Ideal P σ} (h : InStep st i)
    (line : List UInt8) {p : P} (hi : st.initial = some p) :
    ∃ st' r, st.computeSyntax parser line none false = some (st', r) ∧ InStep st' i := by
  obtain ⟨st1, prev, hr, h1⟩ := InStep.look line.length (parser.parse p line).2 st [] 0 h (Nat.zero_le _)
    (hp.sorted p line) (fun o ho => ⟨Nat.zero_le _, hp.inside p line o ho⟩)
  refine ⟨st1, ((parser.parse p line).1, stackAfter (parser.parse p line).2 []), ?_, h1⟩
  rw [PluginState.computeSyntax]
  simp only [hi, Option.none_or, Option.map_some, Option.bind_eq_bind, Option.bind_some, hr]
  rfl

theorem Ideal.flush_scopes (i : Ideal P σ) : i.flush.scopes = [] := by
  rw [Ideal.flush]
  split
  · rename_i h
    simpa using h
  · rfl

theorem Ideal.flush_initial (i : Ideal P σ) : i.flush.initial = i.initial := by
  rw [Ideal.flush]
  split <;> rfl

theorem InStep.moveTo {st : PluginState P σ} {i : Ideal P σ} (h : InStep st i) (offset : Nat) :
    ∃ st', st.moveTo offset = some st' ∧ InStep st' (i.moveTo offset) ∧ (i.moveTo offset).initial = i.initial := by
  rw [PluginState.moveTo, Ideal.moveTo]
  by_cases ho : offset = i.start + i.scopes.length
  · rw [if_pos ho, if_neg (by rw [h.offset]; simpa using ho)]
    exact ⟨st, rfl, h, rfl⟩
  · rw [if_neg ho, if_pos (by rw [h.offset]; exact ho)]
    obtain ⟨st1, hf, h1, hn⟩ := h.flush
    refine ⟨{ st1 with offset := offset, spansStart := offset }, by rw [hf]; rfl, ⟨h1.numbered, h1.initial, rfl, ?_, h1.sent, h1.drawn⟩, i.flush_initial⟩
    show offset = offset + i.flush.scopes.length
    rw [i.flush_scopes]
    rfl

/-- What holds between the operations of a session. -/
structure Ready (stackOf : P → List σ) (begun pending : Bool) (st : PluginState P σ) (i : Ideal P σ) : Prop where
  inStep : InStep st i
  begun : begun = true → ∃ p, i.initial = some p ∧ stackOf p = []
  pending : pending = false → st.newScopes = []

theorem Ready.highlight {parser : Parser P σ} {stackOf : P → List σ} (hp : parser.Ok stackOf) {pending : Bool} {st : PluginState P σ} {i : Ideal P σ}
    (h : Ready stackOf true pending st i) (offset : Nat) (text : List UInt8) {state : Option (P × List σ)} {p : P}
    (hstate : state.or (i.initial.map (fun p => (p, []))) = some (p, stackOf p)) :
    ∃ st' next, st.highlightLine parser offset text state = some (st', next) ∧ Ready stackOf true true st' (i.draw offset (scopesOf parser p (stackOf p) text))
      ∧ (text ≠ [] → next = some ((parser.parse p text).1, stackOf (parser.parse p text).1)) := by
  obtain ⟨p0, hi0, hp0⟩ := h.begun rfl
  obtain ⟨st1, he, h1, hi1⟩ := h.inStep.moveTo offset
  rw [PluginState.highlightLine, he]
  have hb : (i.moveTo offset).initial = some p0 := by rw [hi1, hi0]
  cases text with
  | nil =>
    refine ⟨st1, none, rfl, ⟨?_, fun _ => ⟨p0, hb, hp0⟩, by simp⟩, by simp⟩
    have : scopesOf parser p (stackOf p) [] = [] := rfl
    rw [Ideal.draw, this, List.append_nil]
    exact h1
  | cons a b =>
    obtain ⟨st2, hc, h2⟩ := h1.compute hp (a :: b) (state := state) (p := p) (by rw [h1.initial, hi1]; exact hstate)
    simp only [List.isEmpty_cons, Bool.false_eq_true, if_false, hc]
    exact ⟨_, _, rfl, ⟨h2, fun _ => ⟨p0, hb, hp0⟩, by simp⟩, fun _ => rfl⟩

theorem Ready.line {parser : Parser P σ} {stackOf : P → List σ} (hp : parser.Ok stackOf) {pending : Bool} {st : PluginState P σ} {i : Ideal P σ}
    (h : Ready stackOf true pending st i) (offset : Nat) (text : List UInt8) (state : Option (P × List σ)) (hs : ∀ s, state = some s → s.2 = stackOf s.1) :
    ∃ st', st.step parser (.line offset text state) = some st' ∧ Ready stackOf true true st' (i.step parser (.line offset text state)) := by
  obtain ⟨p0, hi0, hp0⟩ := h.begun rfl
  have hstate : ∃ p, state.or (i.initial.map (fun p => (p, []))) = some (p, stackOf p) := by
    rw [hi0]
    cases state with
    | none => exact ⟨p0, by simp [hp0]⟩
    | some s => exact ⟨s.1, by have := hs s rfl; simp [← this]⟩
  obtain ⟨p, hstate⟩ := hstate
  obtain ⟨st1, next, he, h1, -⟩ := h.highlight hp offset text hstate
  refine ⟨st1, by rw [PluginState.step, he]; rfl, ?_⟩
  rw [Ideal.step]
  simp only [hstate]
  exact h1

/-- A session of the ideal highlighter. -/
theorem Ready.run {parser : Parser P σ} {stackOf : P → List σ} (hp : parser.Ok stackOf) : ∀ (ops : List (Op P σ)) {begun pending : Bool} {st : PluginState P σ} {i : Ideal P σ},
    Ready stackOf begun pending st i → Calm stackOf begun pending ops →
    ∃ st', st.run parser ops = some st' ∧ InStep st' (ops.foldl (Ideal.step parser) i)
  | [], _, _, st, i, h, _ => ⟨st, rfl, h.inStep⟩
  | op :: ops, begun, pending, st, i, h, hc => by
    have go : ∀ {st1 begun pending}, st.step parser op = some st1 → Ready stackOf begun pending st1 (i.step parser op) → Calm stackOf begun pending ops →
        ∃ st', st.run parser (op :: ops) = some st' ∧ InStep st' ((op :: ops).foldl (Ideal.step parser) i) := by
      intro st1 begun pending he h1 hc
      obtain ⟨st2, hr, h2⟩ := Ready.run hp ops h1 hc
      exact ⟨st2, by rw [PluginState.run, he]; exact hr, h2⟩
    cases op with
    | line offset text state =>
      obtain ⟨hb, hs, hc⟩ := hc
      subst hb
      obtain ⟨st1, he, h1⟩ := h.line hp offset text state hs
      exact go he h1 hc
    | flush =>
      obtain ⟨st1, he, h1, hn⟩ := h.inStep.flush
      exact go (begun := begun) (pending := false) he ⟨h1, fun hb => by
        obtain ⟨p, hi, hq⟩ := h.begun hb
        exact ⟨p, by rw [← hi]; exact i.flush_initial, hq⟩, fun _ => hn⟩ hc
    | metadata text =>
      obtain ⟨hb, hc⟩ := hc
      subst hb
      obtain ⟨p, hi, hq⟩ := h.begun rfl
      obtain ⟨st1, r, he, h1⟩ := h.inStep.metadata hp text (h.inStep.initial.trans hi)
      exact go (begun := true) (pending := true) (by rw [PluginState.step, he]; rfl) ⟨h1, h.begun, by simp⟩ hc
    | restart p =>
      obtain ⟨hq, hb, hc⟩ := hc
      have hn := h.pending hb
      refine go (begun := true) (pending := false) rfl ⟨⟨?_, rfl, rfl, rfl, h.inStep.sent, Drawn.nil _⟩, fun _ => ⟨p, rfl, hq⟩, fun _ => rfl⟩ hc
      have := h.inStep.numbered
      rw [hn] at this
      exact this

theorem Ready.start (stackOf : P → List σ) : Ready stackOf false false ({} : PluginState P σ) ({} : Ideal P σ) :=
  ⟨⟨Numbered.empty, rfl, rfl, rfl, rfl, Drawn.nil _⟩, by simp, fun _ => rfl⟩

end Syntect

end Xi
