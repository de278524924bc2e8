import Verif.Plugin.SyntectLemmas
import Verif.Plugin.HighlightLemmas

/-!
# Lemmas about highlighting with the cache of states
-/

namespace Xi

namespace Syntect

set_option linter.unusedSectionVars false

open Plugin Plugin.StateCache

variable {σ P : Type} [DecidableEq σ] [DecidableEq P] {parser : Parser P σ} {stackOf : P → List σ} {initial : P}

theorem highlighter_lawful : (highlighter parser initial).Lawful := by
  refine ⟨fun a => by simp [highlighter], fun a b h => ?_, fun a b c h g => ?_, fun a b l h => ?_⟩
  · simp only [highlighter, decide_eq_true_eq] at h ⊢
    exact h.symm
  · simp only [highlighter, decide_eq_true_eq] at h g ⊢
    exact h.trans g
  · simp only [highlighter, decide_eq_true_eq] at h ⊢
    cases a <;> cases b <;> simp_all

theorem lineState_stack (hp : parser.Ok stackOf) (h0 : stackOf initial = []) (t : List UInt8) : ∀ n, (lineState parser initial t n).2 = stackOf (lineState parser initial t n).1
  | 0 => h0.symm
  | n + 1 => by
    rw [lineState]
    simp only
    rw [lineState_stack hp h0 t n, hp.follows]

theorem stateAt_succ {S : Type} (h : Highlighter S) (t : List UInt8) (n : Nat) : stateAt h t (n + 1) = h.step (stateAt h t n) (lineText t n) := by
  rw [stateAt_from h t (Nat.le_succ n), show n + 1 - n = 1 by omega]
  rfl

theorem stateAt_highlighter (t : List UInt8) : ∀ n, stateAt (highlighter parser initial) t n = if n = 0 then none else some (lineState parser initial t n)
  | 0 => rfl
  | n + 1 => by
    rw [stateAt_succ, stateAt_highlighter t n, if_neg (Nat.succ_ne_zero n)]
    cases n <;> rfl

/-- The states in the cache are those of the parser, with their scopes. -/
def Consistent (stackOf : P → List σ) (es : List (CacheEntry (Option (P × List σ)))) : Prop := ∀ e ∈ es, ∃ p, e.state = some (some (p, stackOf p))

/-- The state from which a line is highlighted is that at its start. -/
theorem atLine (hp : parser.Ok stackOf) (h0 : stackOf initial = []) {c : StateCache (Option (P × List σ))} {t : List UInt8} {p : Nat} {rest : List Nat}
    {pre post : List (CacheEntry (Option (P × List σ)))} {m : Nat} {s : Option (P × List σ)} (hc : Consistent stackOf c.entries)
    (w : AtWork (highlighter parser initial) c t p rest pre post m s) :
    s.or (some (initial, [])) = some (lineState parser initial t m) := by
  have he := w.atEnd
  rcases List.eq_nil_or_concat pre with rfl | ⟨pre', e, rfl⟩
  · simp only [endAt] at he
    cases he
    rfl
  · rw [List.concat_eq_append] at he w
    obtain ⟨q, hq⟩ := hc e (by rw [w.entries]; simp)
    rw [endAt_concat _ _ _ _ _ hq] at he
    cases he
    have hs := w.state
    rw [stateAt_highlighter] at hs
    simp only [highlighter, decide_eq_true_eq] at hs
    split at hs
    · cases hs
    · simp only [Option.map_some, Option.some.injEq] at hs
      rw [Option.some_or, hs, ← lineState_stack hp h0]

theorem atWork_offset {S : Type} {h : Highlighter S} {c : StateCache S} (hl : h.Lawful) {t : List UInt8} (ht : Tracked h c t) {p : Nat} {rest : List Nat} (hf : c.frontier = p :: rest) :
    ∃ pre post m s, AtWork h c t p rest pre post m s ∧ c.getPrev h.init p = (m, lineBegin t m, s) := by
  obtain ⟨pre, post, m, s, off, w, hprev⟩ := atWork hl ht hf
  refine ⟨pre, post, m, s, w, ?_⟩
  obtain ⟨off', h4, h5⟩ := getPrev_spec ht.placed h.init (p := p) (.inr ht.chain.pos) w.entries
    (fun e he => Nat.le_trans (w.before e he) w.le) w.after
  rw [w.atEnd] at h4 h5
  rw [h4, h5]

variable {source : Source} {size : Nat} {r : Rope} {c : StateCache (Option (P × List σ))}

/-- What happens to the cache and to the spans with one line. -/
structure LineDone (parser : Parser P σ) (stackOf : P → List σ) (initial : P) (r : Rope) (c c' : StateCache (Option (P × List σ))) (m : Nat) (rest : List Nat) (more : Bool) : Prop where
  rev : c'.buf.rev = c.buf.rev
  tracked : Tracked (highlighter parser initial) c' r.text
  consistent : Consistent stackOf c'.entries
  closed : more = false → c'.frontier = rest ∧ c'.entries = c.entries
  goesOn : more = true → m < r.text.count newline ∧ c'.frontier = (if rest.head? = some (m + 1) then rest else (m + 1) :: rest)
    ∧ (∃ e ∈ c'.entries, e.line = m + 1) ∧ (∀ e ∈ c'.entries, e.line = m + 1 ∨ ∃ e' ∈ c.entries, e'.line = e.line)
  stops : more = false → m < r.text.count newline → ∃ e ∈ c.entries, e.line = m + 1

theorem stored_lines {c c' : StateCache (Option (P × List σ))} {t : List UInt8} {n : Nat} {s : Option (P × List σ)} (h : Stored c c' t n s) (hn : n ≤ t.count newline)
    (hc : Consistent stackOf c.entries) {p : P} (hs : s = some (p, stackOf p)) :
    Consistent stackOf c'.entries ∧ (∃ e ∈ c'.entries, e.line = n) ∧ (∀ e ∈ c'.entries, e.line = n ∨ ∃ e' ∈ c.entries, e'.line = e.line) := by
  subst hs
  rcases h with ⟨pre, e, post, h1, h2, h3⟩ | ⟨-, h1, pre, post, h2, h3, h4, h5⟩ | ⟨h1, -⟩
  · rw [h3]
    refine ⟨?_, ⟨{ e with state := some (some (p, stackOf p)) }, by simp, h2⟩, ?_⟩
    · intro x hx
      rw [List.mem_append, List.mem_cons] at hx
      rcases hx with hx | hx | hx
      · exact hc x (by rw [h1]; simp [hx])
      · exact ⟨p, by rw [hx]⟩
      · exact hc x (by rw [h1]; simp [hx])
    · intro x hx
      rw [List.mem_append, List.mem_cons] at hx
      rcases hx with hx | hx | hx
      · exact .inr ⟨x, by rw [h1]; simp [hx], rfl⟩
      · exact .inl (by rw [hx]; exact h2)
      · exact .inr ⟨x, by rw [h1]; simp [hx], rfl⟩
  · have hsub := h2.sublist.subset
    rw [h5]
    refine ⟨?_, ⟨⟨n, lineBegin t n, some (some (p, stackOf p))⟩, by simp, rfl⟩, ?_⟩
    · intro x hx
      rw [List.mem_append, List.mem_cons] at hx
      rcases hx with hx | hx | hx
      · exact hc x (hsub (by simp [hx]))
      · exact ⟨p, by rw [hx]⟩
      · exact hc x (hsub (by simp [hx]))
    · intro x hx
      rw [List.mem_append, List.mem_cons] at hx
      rcases hx with hx | hx | hx
      · exact .inr ⟨x, hsub (by simp [hx]), rfl⟩
      · exact .inl (by rw [hx])
      · exact .inr ⟨x, hsub (by simp [hx]), rfl⟩
  · omega

/-- One line is highlighted. -/
theorem oneLine (hp : parser.Ok stackOf) (h0 : stackOf initial = []) (ht : Tracked (highlighter parser initial) c r.text) (hc : Consistent stackOf c.entries)
    (hr : Reading source size r c.buf.rev) (ha : Answers source size c.buf.rev r) (rng : Nat → Nat) {p : Nat} {rest : List Nat} (hf : c.frontier = p :: rest)
    {st : PluginState P σ} {i : Ideal P σ} {pending : Bool} (hst : Ready stackOf true pending st i) (hi : i.initial = some initial) :
    ∃ m st' c' more, st.highlightOneLine parser initial source size rng c = some (st', c', more) ∧ Plugin.highlightOneLine (highlighter parser initial) source size rng c = some (c', more)
      ∧ m ≤ p ∧ m ≤ r.text.count newline ∧ (∀ e ∈ c.entries, e.line ≤ m ∨ p < e.line) ∧ (m = 0 ∨ ∃ e ∈ c.entries, e.line = m)
      ∧ Ready stackOf true true st' (i.draw (lineBegin r.text m) (scopesIn parser initial r.text m)) ∧ LineDone parser stackOf initial r c c' m rest more := by
  obtain ⟨pre, post, m, s, w, hprev⟩ := atWork_offset highlighter_lawful ht hf
  have hgf : c.getFrontier = some p := by rw [getFrontier, hf]; rfl
  have hs := atLine hp h0 hc w
  have hmc := w.le_count
  obtain ⟨b, x, k1, k2, k3⟩ := getLine_spec hr ht.placed.coh (n := m) (Nat.lt_succ_of_le hmc)
  obtain rfl : x = some (lineText r.text m) := by
    rcases k3 with k3 | ⟨-, k3⟩
    · exact k3
    · exact absurd ha k3
  have hls := lineState_stack hp h0 r.text m
  obtain ⟨st1, next, hl, h1, hnext⟩ := hst.highlight hp (lineBegin r.text m) (lineText r.text m) (state := s) (p := (lineState parser initial r.text m).1)
    (by rw [hi]; simp only [Option.map_some]; rw [hs, ← hls])
  rw [← hls] at h1
  obtain ⟨c', more, hh, hrev, htr, -, -⟩ := highlight_spec highlighter_lawful ht hr ha rng
  refine ⟨m, st1, c', more, ?_, hh, w.le, hmc, ?_, ?_, h1, ?_⟩
  · rw [Plugin.highlightOneLine, hgf] at hh
    rw [PluginState.highlightOneLine, hgf]
    have hprev' : c.getPrev none p = (m, lineBegin r.text m, s) := hprev
    simp only [hprev, hprev', k1, highlightRead] at hh ⊢
    simp only [hl, Option.bind_eq_bind, Option.bind_some]
    split at hh
    · rename_i hnl
      rw [if_pos hnl]
      have hne : lineText r.text m ≠ [] := by intro e; rw [e] at hnl; cases hnl
      have hstep : (highlighter parser initial).step s (lineText r.text m) = next := by
        rw [hnext hne]
        have : s.getD (initial, []) = lineState parser initial r.text m := by
          cases s with
          | none => simpa using hs
          | some y => simpa using hs
        simp only [highlighter, this]
        congr 1
        rw [← hp.follows, ← hls]
        rfl
      rw [hstep] at hh
      rw [hh]
      rfl
    · rename_i hnl
      rw [if_neg hnl]
      cases hcf : StateCache.closeFrontier { c with buf := b } with
      | none => rw [hcf] at hh; cases hh
      | some c2 => rw [hcf] at hh; cases hh; rfl
  · intro e he
    rw [w.entries, List.mem_append] at he
    rcases he with he | he
    · exact .inl (w.before e he)
    · exact .inr (w.after e he)
  · have he := w.atEnd
    rcases List.eq_nil_or_concat pre with rfl | ⟨pre', e, rfl⟩
    · simp only [endAt] at he
      cases he
      exact .inl rfl
    · rw [List.concat_eq_append] at he w
      obtain ⟨q, hq⟩ := hc e (by rw [w.entries]; simp)
      rw [endAt_concat _ _ _ _ _ hq] at he
      cases he
      exact .inr ⟨e, by rw [w.entries]; simp, rfl⟩
  · rw [Plugin.highlightOneLine, hgf] at hh
    simp only [hprev, k1, highlightRead] at hh
    have hclosed : ∀ {c2 : StateCache (Option (P × List σ))}, StateCache.closeFrontier { c with buf := b } = some c2 → c2.frontier = rest ∧ c2.entries = c.entries := by
      intro c2 e
      simp only [StateCache.closeFrontier, hf, Option.some.injEq] at e
      subst e
      exact ⟨rfl, rfl⟩
    by_cases hm : m < r.text.count newline
    · rw [if_pos ((lineText_ends hmc).2 hm), settle] at hh
      have hne : lineText r.text m ≠ [] := by
        intro e
        have := (lineText_ends hmc).2 hm
        rw [e] at this
        cases this
      have hstep : (highlighter parser initial).step s (lineText r.text m) = some ((parser.parse (lineState parser initial r.text m).1 (lineText r.text m)).1,
          stackOf (parser.parse (lineState parser initial r.text m).1 (lineText r.text m)).1) := by
        have : s.getD (initial, []) = lineState parser initial r.text m := by
          cases s with
          | none => simpa using hs
          | some y => simpa using hs
        simp only [highlighter, this]
        congr 1
        rw [← hp.follows, ← hls]
        rfl
      have hplaced : Placed { c with buf := b } r.text := ht.placed.buf k2.coh
      obtain ⟨c1, j1, j2, j3, j4, j5⟩ := set_spec (source := source) (size := size) (r := r) (c := { c with buf := b }) (by rw [show b.rev = c.buf.rev from k2.rev]; exact hr)
        (by rw [show b.rev = c.buf.rev from k2.rev]; exact ha) hplaced rng (n := m + 1) (by omega) ((highlighter parser initial).step s (lineText r.text m))
      have hstore : (do
          let c ← StateCache.set source size rng { c with buf := b } (m + 1) ((highlighter parser initial).step s (lineText r.text m))
          return (← c.updateFrontier (m + 1), true) : Option (StateCache (Option (P × List σ)) × Bool)) = some (c', more) →
          LineDone parser stackOf initial r c c' m rest more := by
        intro e
        rw [j1] at e
        simp only [Option.bind_eq_bind, Option.bind_some, updateFrontier, j4, hf] at e
        cases e
        obtain ⟨l1, l2, l3⟩ := stored_lines (stackOf := stackOf) j5 (by omega) hc hstep
        exact ⟨hrev, htr, l1, by simp, fun _ => ⟨hm, rfl, l2, l3⟩, by simp⟩
      rcases get_spec hplaced (m + 1) with ⟨e, old, g1, g2, g3, g4⟩ | ⟨g1, g2⟩
      · rw [g4] at hh
        simp only at hh
        by_cases hsame : (highlighter parser initial).same old ((highlighter parser initial).step s (lineText r.text m)) = true
        · rw [if_pos hsame] at hh
          cases hcf : StateCache.closeFrontier { c with buf := b } with
          | none => rw [hcf] at hh; cases hh
          | some c2 =>
            rw [hcf] at hh
            cases hh
            obtain ⟨q1, q2⟩ := hclosed hcf
            exact ⟨hrev, htr, by rw [q2]; exact hc, fun _ => ⟨q1, q2⟩, by simp, fun _ _ => ⟨e, g1, g2⟩⟩
        · rw [if_neg hsame] at hh
          exact hstore hh
      · rw [g2] at hh
        exact hstore hh
    · rw [if_neg (fun hc => hm ((lineText_ends hmc).1 hc))] at hh
      cases hcf : StateCache.closeFrontier { c with buf := b } with
      | none => rw [hcf] at hh; cases hh
      | some c2 =>
        rw [hcf] at hh
        cases hh
        obtain ⟨q1, q2⟩ := hclosed hcf
        exact ⟨hrev, htr, by rw [q2]; exact hc, fun _ => ⟨q1, q2⟩, by simp, fun _ h => absurd h hm⟩

/-! ## A new document -/

theorem Follow.append : ∀ {ps : List (Picture σ)} {x : Nat} {p : Picture σ}, Follow x ps → p.start = x + (ps.flatMap (·.scopes)).length → Follow x (ps ++ [p])
  | [], x, p, _, h => ⟨by simpa using h, trivial⟩
  | q :: ps, x, p, hf, h => ⟨hf.1, Follow.append hf.2 (by rw [h, List.flatMap_cons, List.length_append]; omega)⟩

theorem scopesIn_length (t : List UInt8) (n : Nat) : lineBegin t n + (scopesIn parser initial t n).length = lineBegin t (n + 1) := by
  rw [scopesIn, scopesOf_length, lineText, part, List.length_drop, List.length_take]
  have h1 := lineBegin_le t (n + 1)
  have h2 : lineBegin t n ≤ lineBegin t (n + 1) := lineBegin_mono (Nat.le_succ n)
  omega

theorem scopesIn_total (t : List UInt8) : ∀ k, ((List.range k).flatMap (scopesIn parser initial t)).length = lineBegin t k
  | 0 => by rw [lineBegin_zero]; rfl
  | k + 1 => by
    rw [List.range_succ, List.flatMap_append, List.length_append, scopesIn_total t k, List.flatMap_singleton]
    exact scopesIn_length t k

/-- All lines before `k` have been highlighted, in order. -/
structure Covered (parser : Parser P σ) (initial : P) (t : List UInt8) (i : Ideal P σ) (k : Nat) : Prop where
  begun : i.initial = some initial
  start : i.start = (i.sent.flatMap (·.scopes)).length
  all : i.sent.flatMap (·.scopes) ++ i.scopes = (List.range k).flatMap (scopesIn parser initial t)
  follow : Follow 0 i.sent

theorem Covered.draw {t : List UInt8} {i : Ideal P σ} {k : Nat} (h : Covered parser initial t i k) : Covered parser initial t (i.draw (lineBegin t k) (scopesIn parser initial t k)) (k + 1) := by
  have hlen : lineBegin t k = i.start + i.scopes.length := by
    rw [← scopesIn_total (parser := parser) (initial := initial) t k, ← h.all, List.length_append, h.start]
  rw [Ideal.draw, Ideal.moveTo, if_pos hlen]
  refine ⟨h.begun, h.start, ?_, h.follow⟩
  show i.sent.flatMap (·.scopes) ++ (i.scopes ++ _) = _
  rw [← List.append_assoc, h.all, List.range_succ, List.flatMap_append, List.flatMap_singleton]

theorem Covered.flush {t : List UInt8} {i : Ideal P σ} {k : Nat} (h : Covered parser initial t i k) : Covered parser initial t i.flush k := by
  rw [Ideal.flush]
  split
  · exact h
  · refine ⟨h.begun, ?_, ?_, Follow.append h.follow (by rw [Nat.zero_add]; exact h.start)⟩
    · show i.start + i.scopes.length = _
      rw [List.flatMap_append, List.length_append, ← h.start, List.flatMap_singleton]
    · show _ ++ [] = _
      rw [List.flatMap_append, List.flatMap_singleton, List.append_nil]
      exact h.all

/-- The cache when the lines before `k` have been highlighted. -/
structure Sweep (parser : Parser P σ) (stackOf : P → List σ) (initial : P) (source : Source) (size : Nat) (r : Rope) (c : StateCache (Option (P × List σ))) (k : Nat) : Prop where
  tracked : Tracked (highlighter parser initial) c r.text
  consistent : Consistent stackOf c.entries
  frontier : c.frontier = [k]
  upTo : ∀ e ∈ c.entries, e.line ≤ k
  here : k = 0 ∨ ∃ e ∈ c.entries, e.line = k
  reading : Reading source size r c.buf.rev
  answers : Answers source size c.buf.rev r

theorem Sweep.step (hp : parser.Ok stackOf) (h0 : stackOf initial = []) {k : Nat} (h : Sweep parser stackOf initial source size r c k) (rng : Nat → Nat)
    {st : PluginState P σ} {i : Ideal P σ} {pending : Bool} (hst : Ready stackOf true pending st i) (hi : Covered parser initial r.text i k) :
    ∃ st' c' i' more, st.highlightOneLine parser initial source size rng c = some (st', c', more) ∧ Ready stackOf true true st' i' ∧ Covered parser initial r.text i' (k + 1)
      ∧ (more = true → k < r.text.count newline ∧ Sweep parser stackOf initial source size r c' (k + 1)) ∧ (more = false → r.text.count newline ≤ k ∧ c'.frontier = []) := by
  obtain ⟨m, st', c', more, h1, -, h3, h4, h5, h6, h7, h8⟩ := oneLine hp h0 h.tracked h.consistent h.reading h.answers rng h.frontier hst hi.begun
  have hm : m = k := by
    rcases h.here with hk | ⟨e, he, hk⟩
    · omega
    · rcases h5 e he with hle | hgt <;> omega
  subst hm
  refine ⟨st', c', _, more, h1, h7, hi.draw, ?_, ?_⟩
  · intro hmore
    obtain ⟨g1, g2, g3, g4⟩ := h8.goesOn hmore
    refine ⟨g1, h8.tracked, h8.consistent, g2, ?_, .inr g3, by rw [h8.rev]; exact h.reading, by rw [h8.rev]; exact h.answers⟩
    intro e he
    rcases g4 e he with hl | ⟨e', he', hl⟩
    · omega
    · have := h.upTo e' he'
      omega
  · intro hmore
    refine ⟨?_, (h8.closed hmore).1⟩
    apply Nat.le_of_not_lt
    intro hlt
    obtain ⟨e, he, hl⟩ := h8.stops hmore hlt
    have := h.upTo e he
    omega

theorem Sweep.loop (hp : parser.Ok stackOf) (h0 : stackOf initial = []) (rng : Nat → Nat → Nat) (busy : Nat → Bool) : ∀ (n : Nat) {k : Nat} {c : StateCache (Option (P × List σ))}
    {st : PluginState P σ} {i : Ideal P σ} {pending : Bool}, Sweep parser stackOf initial source size r c k → Ready stackOf true pending st i → Covered parser initial r.text i k →
    ∃ st' c' i' more k', PluginState.idleLoop parser initial source size rng busy n st c = some (st', c', more) ∧ (∃ pending, Ready stackOf true pending st' i')
      ∧ Covered parser initial r.text i' k' ∧ k ≤ k' ∧ (more = true → Sweep parser stackOf initial source size r c' k' ∧ (0 < n → k < k' ∧ k' ≤ r.text.count newline))
      ∧ (more = false → k' = r.text.count newline + 1 ∧ c'.frontier = [])
  | 0, k, c, st, i, pending, h, hst, hi => ⟨st, c, i, true, k, rfl, ⟨_, hst⟩, hi, Nat.le_refl _, fun _ => ⟨h, fun h => absurd h (Nat.lt_irrefl 0)⟩, by simp⟩
  | n + 1, k, c, st, i, pending, h, hst, hi => by
    obtain ⟨st1, c1, i1, more, g1, g2, g3, g4, g5⟩ := h.step hp h0 (rng n) hst hi
    rw [PluginState.idleLoop, g1]
    cases more with
    | false =>
      obtain ⟨q1, q2⟩ := g5 rfl
      have hb := h.tracked.bound k (by rw [h.frontier]; simp)
      exact ⟨st1, c1, i1, false, k + 1, rfl, ⟨_, g2⟩, g3, Nat.le_succ k, by simp, fun _ => ⟨by omega, q2⟩⟩
    | true =>
      obtain ⟨q1, q2⟩ := g4 rfl
      simp only
      by_cases hb : busy n = true
      · rw [if_pos hb]
        exact ⟨st1, c1, i1, true, k + 1, rfl, ⟨_, g2⟩, g3, Nat.le_succ k, fun _ => ⟨q2, fun _ => by omega⟩, by simp⟩
      · rw [if_neg hb]
        obtain ⟨st2, c2, i2, more, k2, f1, f2, f3, f4, f5, f6⟩ := Sweep.loop hp h0 rng busy n q2 g2 g3
        refine ⟨st2, c2, i2, more, k2, f1, f2, f3, by omega, fun hm => ⟨(f5 hm).1, fun _ => ⟨by omega, ?_⟩⟩, f6⟩
        have h1 := (f5 hm).1
        exact h1.tracked.bound k2 (by rw [h1.frontier]; simp)

theorem Sweep.idles (hp : parser.Ok stackOf) (h0 : stackOf initial = []) (rng : Nat → Nat → Nat → Nat) (busy : Nat → Nat → Bool) : ∀ (n : Nat) {k : Nat} {c : StateCache (Option (P × List σ))}
    {st : PluginState P σ} {i : Ideal P σ} {pending : Bool}, Sweep parser stackOf initial source size r c k → Ready stackOf true pending st i → Covered parser initial r.text i k →
    r.text.count newline < k + n →
    ∃ st' c' i', PluginState.idles parser initial source size rng busy n st c = some (st', c') ∧ InStep st' i' ∧ i'.scopes = [] ∧ c'.frontier = []
      ∧ Covered parser initial r.text i' (r.text.count newline + 1)
  | 0, k, c, st, i, pending, h, hst, hi, hn => by
    have hb := h.tracked.bound k (by rw [h.frontier]; simp)
    omega
  | n + 1, k, c, st, i, pending, h, hst, hi, hn => by
    obtain ⟨st1, c1, i1, more, k1, g1, ⟨pending1, g2⟩, g3, g4, g5, g6⟩ := Sweep.loop hp h0 (rng n) (busy n) linesPerRpc h hst hi
    obtain ⟨st2, f1, f2, f3⟩ := g2.inStep.flush
    rw [PluginState.idles, PluginState.idle, g1]
    simp only [f1, Option.map_some]
    cases more with
    | false =>
      obtain ⟨q1, q2⟩ := g6 rfl
      subst q1
      exact ⟨st2, c1, i1.flush, rfl, f2, i1.flush_scopes, q2, g3.flush⟩
    | true =>
      obtain ⟨q1, q2⟩ := g5 rfl
      have q2 := q2 (by decide)
      have hb : ∃ p, i1.flush.initial = some p ∧ stackOf p = [] := ⟨initial, by rw [i1.flush_initial]; exact g3.begun, h0⟩
      exact Sweep.idles hp h0 rng busy n (pending := false) q1 ⟨f2, fun _ => hb, fun _ => f3⟩ g3.flush (by omega)

end Syntect

end Xi
