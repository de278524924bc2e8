import Verif.Plugin.StateChainLemmas

/-!
# The highlighter and the cache of states
-/

namespace Xi

namespace Plugin

variable {S : Type}

open StateCache

/-- The nearest entry at or before a line. -/
theorem getPrev_spec {c : StateCache S} {t : List UInt8} (hp : Placed c t) (s0 : S) {p : Nat} (h0 : 0 < p ∨ ∀ e ∈ c.entries, 0 < e.line) {pre post : List (CacheEntry S)}
    (h1 : c.entries = pre ++ post) (h2 : ∀ e ∈ pre, e.line ≤ p) (h3 : ∀ e ∈ post, p < e.line) :
    ∃ off, c.getPrev s0 p = ((endAt 0 s0 pre).1, off, (endAt 0 s0 pre).2) ∧ off = lineBegin t (endAt 0 s0 pre).1 := by
  have hscan : ∀ (pre1 : List (CacheEntry S)) (e : CacheEntry S), e ∈ c.entries → ∃ off, scanBack s0 (e :: pre1.reverse) = ((endAt 0 s0 (pre1 ++ [e])).1, off, (endAt 0 s0 (pre1 ++ [e])).2) ∧
      off = lineBegin t (endAt 0 s0 (pre1 ++ [e])).1 := by
    intro pre1 e he
    obtain ⟨s, hs⟩ := Option.isSome_iff_exists.1 (hp.state e he)
    rw [endAt_concat _ _ _ _ _ hs, scanBack, hs]
    exact ⟨_, rfl, hp.offset e he⟩
  rw [getPrev]
  split
  · rename_i hpos
    rcases findLine_spec hp.sorted p with ⟨pre1, e, post1, g1, g2, g3, g4, g5⟩ | ⟨pre1, post1, g1, g2, g3, g4⟩
    · obtain ⟨rfl, rfl⟩ := split_unique (n := p) (pre := pre) (post := post) (pre' := pre1 ++ [e]) (post' := post1) (by rw [← h1, g1]; simp) h2 h3 (by
        intro x hx
        simp only [List.mem_append, List.mem_singleton] at hx
        rcases hx with hx | rfl
        · exact Nat.le_of_lt (g3 x hx)
        · omega) g4
      rw [g5]
      simp only
      rw [g1, show pre1 ++ e :: post = (pre1 ++ [e]) ++ post by simp, List.take_left' (by simp), List.reverse_append]
      exact hscan pre1 e (by rw [g1]; simp)
    · obtain ⟨rfl, rfl⟩ := split_unique (n := p) (pre := pre) (post := post) (pre' := pre1) (post' := post1) (by rw [← h1, g1]) h2 h3 (fun x hx => Nat.le_of_lt (g2 x hx)) g3
      rw [g4]
      rcases List.eq_nil_or_concat pre with rfl | ⟨pre2, e, rfl⟩
      · exact ⟨0, rfl, (lineBegin_zero t).symm⟩
      · simp only [List.concat_eq_append, List.length_append, List.length_singleton] at h1 ⊢
        rw [h1, List.take_left' (by simp), List.reverse_append]
        exact hscan pre2 e (by rw [h1]; simp)
  · rename_i hpos
    obtain rfl : pre = [] := by
      cases pre with
      | nil => rfl
      | cons e es =>
        have a := h2 e (by simp)
        rcases h0 with h0 | h0
        · omega
        · have := h0 e (by rw [h1]; simp)
          omega
    exact ⟨0, rfl, (lineBegin_zero t).symm⟩

theorem get_spec {c : StateCache S} {t : List UInt8} (hp : Placed c t) (n : Nat) :
    (∃ e s, e ∈ c.entries ∧ e.line = n ∧ e.state = some s ∧ c.get n = some s) ∨ ((∀ e ∈ c.entries, e.line ≠ n) ∧ c.get n = none) := by
  rw [StateCache.get]
  rcases findLine_spec hp.sorted n with ⟨pre, e, post, g1, g2, g3, g4, g5⟩ | ⟨pre, post, g1, g2, g3, g4⟩
  · left
    have he : e ∈ c.entries := by rw [g1]; simp
    obtain ⟨s, hs⟩ := Option.isSome_iff_exists.1 (hp.state e he)
    refine ⟨e, s, he, g2, hs, ?_⟩
    rw [g5]
    simp [g1, hs]
  · right
    refine ⟨fun e he heq => ?_, by rw [g4]⟩
    rw [g1] at he
    rcases List.mem_append.1 he with he | he
    · have := g2 e he; omega
    · have := g3 e he; omega

/-- The work that is left. -/
def effort (c : StateCache S) (t : List UInt8) : Nat :=
  match c.frontier with
  | [] => 0
  | p :: rest => rest.length * (t.count newline + 1) + (t.count newline + 1 - lastEntry c p)

theorem effort_rest {c : StateCache S} {t : List UInt8} {rest : List Nat} (h : c.frontier = rest) : effort c t ≤ rest.length * (t.count newline + 1) := by
  rw [effort, h]
  cases rest with
  | nil => simp
  | cons p rest =>
    simp only [List.length_cons, Nat.succ_mul]
    omega

section

variable {h : Highlighter S} {source : Source} {size : Nat} {r : Rope} {c : StateCache S}

/-- What the highlighter knows when it starts on a line. -/
structure AtWork (h : Highlighter S) (c : StateCache S) (t : List UInt8) (p : Nat) (rest : List Nat) (pre post : List (CacheEntry S)) (m : Nat) (s : S) : Prop where
  tracked : Tracked h c t
  frontier : c.frontier = p :: rest
  entries : c.entries = pre ++ post
  before : ∀ e ∈ pre, e.line ≤ m
  after : ∀ e ∈ post, p < e.line
  le : m ≤ p
  atEnd : endAt 0 h.init pre = (m, s)
  right : ∀ e ∈ pre, RightEntry h t e
  state : h.same s (stateAt h t m) = true

theorem atWork (hl : h.Lawful) {t : List UInt8} (ht : Tracked h c t) {p : Nat} {rest : List Nat} (hf : c.frontier = p :: rest) :
    ∃ pre post m s off, AtWork h c t p rest pre post m s ∧ c.getPrev h.init p = (m, off, s) := by
  obtain ⟨pre, post, h1, h2, h3⟩ := split_sorted ht.placed.sorted p
  obtain ⟨off, h4, h5⟩ := getPrev_spec ht.placed h.init (p := p) (.inr ht.chain.pos) h1 h2 h3
  have hchain := ht.chain
  rw [h1, chain_append] at hchain
  have hs := ht.sorted
  rw [hf, List.pairwise_cons] at hs
  have hge : ∀ q ∈ c.frontier, p ≤ q := by
    intro q hq
    rw [hf] at hq
    rcases List.mem_cons.1 hq with rfl | hq
    · exact Nat.le_refl _
    · exact Nat.le_of_lt (hs.1 q hq)
  have hright : ∀ e ∈ pre, RightEntry h t e := fun e he => hchain.1.right hl hge (hl.refl _) e he (h2 e he) h2
  have hpre : pre.Pairwise (fun a b : CacheEntry S => a.line < b.line) := by have := ht.placed.sorted; rw [h1] at this; exact (List.pairwise_append.1 this).1
  refine ⟨pre, post, _, _, off, ⟨ht, hf, h1, ?_, h3, ?_, rfl, hright, ?_⟩, h4⟩
  · intro e he
    rw [endAt_lastLine]
    exact lastLine_ge hpre he
  · rw [endAt_lastLine]
    exact lastLine_le h2
  · rcases List.eq_nil_or_concat pre with rfl | ⟨pre', e, rfl⟩
    · exact hl.refl _
    · rw [List.concat_eq_append] at hright ⊢
      obtain ⟨s, k1, k2⟩ := hright e (by simp)
      rw [endAt_concat _ _ _ _ _ k1]
      exact k2

theorem AtWork.last {t : List UInt8} {p : Nat} {rest : List Nat} {pre post : List (CacheEntry S)} {m : Nat} {s : S} (w : AtWork h c t p rest pre post m s) :
    lastEntry c p = m := by
  rw [lastEntry_spec w.entries (fun e he => Nat.le_trans (w.before e he) w.le) w.after, ← endAt_lastLine h.init, w.atEnd]

theorem AtWork.le_count {t : List UInt8} {p : Nat} {rest : List Nat} {pre post : List (CacheEntry S)} {m : Nat} {s : S} (w : AtWork h c t p rest pre post m s) :
    m ≤ t.count newline := Nat.le_trans w.le (w.tracked.bound p (by rw [w.frontier]; simp))

theorem AtWork.effort_eq {t : List UInt8} {p : Nat} {rest : List Nat} {pre post : List (CacheEntry S)} {m : Nat} {s : S} (w : AtWork h c t p rest pre post m s) :
    effort c t = rest.length * (t.count newline + 1) + (t.count newline + 1 - m) := by
  rw [Plugin.effort, w.frontier]
  simp only
  rw [w.last]

/-- Nothing is left to do here: the pending line is closed. -/
theorem AtWork.close {t : List UInt8} {p : Nat} {rest : List Nat} {pre post : List (CacheEntry S)} {m : Nat} {s : S} (w : AtWork h c t p rest pre post m s)
    (hpost : Chain h t rest m s post) : c.closeFrontier = some { c with frontier := rest } ∧ Tracked h { c with frontier := rest } t := by
  have hs := w.tracked.sorted
  have hb := w.tracked.bound
  have hchain := w.tracked.chain
  rw [w.frontier] at hs hb hchain
  rw [List.pairwise_cons] at hs
  refine ⟨by rw [closeFrontier, w.frontier], w.tracked.placed.frontier rest, hs.2, fun q hq => hb q (by simp [hq]), ?_⟩
  show Chain h t rest 0 h.init c.entries
  rw [w.entries, chain_append] at hchain ⊢
  refine ⟨hchain.1.mono (N := m) (fun _ _ => rfl) (fun q hq _ hlt => ?_) w.before, ?_⟩
  · have := w.le
    rcases List.mem_cons.1 hq with rfl | hq
    · omega
    · have := hs.1 q hq; omega
  · rw [w.atEnd]
    exact hpost

/-- A new state is stored. -/
theorem AtWork.store (hl : h.Lawful) {p : Nat} {rest : List Nat} {pre post : List (CacheEntry S)} {m : Nat} {s : S} (w : AtWork h c r.text p rest pre post m s)
    (hr : Reading source size r c.buf.rev) (ha : Answers source size c.buf.rev r) (hm : m < r.text.count newline) (rng : Nat → Nat) :
    ∃ c1 c', c.set source size rng (m + 1) (h.step s (lineText r.text m)) = some c1 ∧ c1.updateFrontier (m + 1) = some c' ∧ c'.buf.rev = c.buf.rev ∧
      Tracked h c' r.text ∧ effort c' r.text < effort c r.text := by
  obtain ⟨c1, k1, k2, k3, k4, k5⟩ := set_spec hr ha w.tracked.placed rng (n := m + 1) (by omega) (h.step s (lineText r.text m))
  have hs := w.tracked.sorted
  have hb := w.tracked.bound
  have hchain := w.tracked.chain
  rw [w.frontier] at hs hb hchain
  rw [List.pairwise_cons] at hs
  rw [w.entries, chain_append, w.atEnd] at hchain
  have hle := w.le
  -- the new state is right
  have hnew : h.same (h.step s (lineText r.text m)) (stateAt h r.text (m + 1)) = true := by
    rw [stateAt_from h r.text (Nat.le_succ m), show m + 1 - m = 1 by omega, runLines, runLines]
    exact hl.step _ _ _ w.state
  -- the new frontier
  have hfront : ∃ F', c1.updateFrontier (m + 1) = some { c1 with frontier := F' } ∧ m + 1 ∈ F' ∧ (∀ q ∈ rest, q ∈ F') ∧ F'.Pairwise (· < ·) ∧
      (∀ q ∈ F', q ≤ r.text.count newline) ∧ (F' = rest ∨ F' = (m + 1) :: rest) := by
    rw [updateFrontier, k4, w.frontier]
    simp only
    by_cases he : rest.head? = some (m + 1)
    · rw [if_pos he]
      refine ⟨_, rfl, ?_, fun q hq => hq, hs.2, fun q hq => hb q (by simp [hq]), .inl rfl⟩
      exact List.mem_of_head? he
    · rw [if_neg he]
      refine ⟨_, rfl, by simp, fun q hq => by simp [hq], ?_, ?_, .inr rfl⟩
      · rw [List.pairwise_cons]
        refine ⟨fun q hq => ?_, hs.2⟩
        cases rest with
        | nil => simp at hq
        | cons x rest =>
          have hx := hs.1 x (by simp)
          have hxm : x ≠ m + 1 := fun h => he (by simp [h])
          rcases List.mem_cons.1 hq with rfl | hq
          · omega
          · have := (List.pairwise_cons.1 hs.2).1 q hq; omega
      · intro q hq
        rcases List.mem_cons.1 hq with rfl | hq
        · omega
        · exact hb q (by simp [hq])
  obtain ⟨F', f1, f2, f3, f4, f5, f6⟩ := hfront
  -- the new entries
  have hent : ∃ pre' e' post', c1.entries = pre' ++ e' :: post' ∧ e'.line = m + 1 ∧ e'.state = some (h.step s (lineText r.text m)) ∧ (∀ e ∈ pre', RightEntry h r.text e) ∧
      (∀ e ∈ post', p < e.line) ∧ ∃ s1 m1, Chain h r.text (p :: rest) m1 s1 post' := by
    have hsp := w.tracked.placed.sorted
    rcases k5 with ⟨pre1, e, post1, g1, g2, g3⟩ | ⟨-, g0, pre1, post1, g1, g2, g3, g4⟩ | ⟨g1, -⟩
    · have hsp1 := hsp
      rw [g1, List.pairwise_append, List.pairwise_cons] at hsp1
      obtain ⟨rfl, h2⟩ := split_unique (n := m) (pre := pre) (post := post) (pre' := pre1) (post' := e :: post1) (by rw [← w.entries, g1]) w.before
        (fun x hx => by have := w.after x hx; omega) (fun x hx => by have := hsp1.2.2 x hx e (by simp); omega) (by
          intro x hx
          rcases List.mem_cons.1 hx with rfl | hx
          · omega
          · have := hsp1.2.1.1 x hx; omega)
      refine ⟨pre, _, post1, g3, g2, rfl, w.right, fun x hx => w.after x (by rw [h2]; simp [hx]), ?_⟩
      rw [h2] at hchain
      obtain ⟨s1, -, -, -, h7⟩ := hchain.2
      exact ⟨_, _, h7⟩
    · refine ⟨pre1, _, post1, g4, rfl, rfl, ?_, ?_, ?_⟩
      · intro e he
        have hmem : e ∈ c.entries := g1.sublist.subset (by simp [he])
        rw [w.entries] at hmem
        rcases List.mem_append.1 hmem with hmem | hmem
        · exact w.right e hmem
        · have := w.after e hmem
          have := g2 e he
          omega
      · intro e he
        have hmem : e ∈ c.entries := g1.sublist.subset (by simp [he])
        rw [w.entries] at hmem
        rcases List.mem_append.1 hmem with hmem | hmem
        · have := w.before e hmem
          have := g3 e he
          omega
        · exact w.after e hmem
      · have hc1 : Chain h r.text (p :: rest) 0 h.init (pre1 ++ post1) := by
          have := w.tracked.chain
          rw [w.frontier] at this
          exact this.evicted hl g1
        rw [chain_append] at hc1
        exact ⟨_, _, hc1.2⟩
    · omega
  obtain ⟨pre', e', post', j1, j2, j3, j4, j6, s1, m1, j5⟩ := hent
  have hsp' := k2.sorted
  rw [j1, List.pairwise_append, List.pairwise_cons] at hsp'
  have hT : Tracked h { c1 with frontier := F' } r.text := by
    refine ⟨k2.frontier F', f4, f5, ?_⟩
    show Chain h r.text F' 0 h.init c1.entries
    rw [j1, show pre' ++ e' :: post' = (pre' ++ [e']) ++ post' by simp, chain_append, endAt_concat _ _ _ _ _ j3]
    constructor
    · refine chain_of_right hl (hl.refl _) ?_ ?_ ?_
      · rw [List.pairwise_append]
        exact ⟨hsp'.1, by simp, fun a ha b hb => by simp only [List.mem_singleton] at hb; rw [hb]; exact hsp'.2.2 a ha e' (by simp)⟩
      · intro e he
        rcases List.mem_append.1 he with he | he
        · rcases k5 with ⟨pre1, x, post1, g1, g2, g3⟩ | ⟨-, g0, pre1, post1, g1, g2, g3, g4⟩ | ⟨g1, -⟩
          · have hmem : ∃ x ∈ c.entries, x.line = e.line := by
              have : e ∈ c1.entries := by rw [j1]; simp [he]
              rw [g3] at this
              simp only [List.mem_append, List.mem_cons] at this
              rcases this with h9 | rfl | h9
              · exact ⟨e, by rw [g1]; simp [h9], rfl⟩
              · exact ⟨x, by rw [g1]; simp, rfl⟩
              · exact ⟨e, by rw [g1]; simp [h9], rfl⟩
            obtain ⟨x, hx, hxe⟩ := hmem
            rw [← hxe]
            exact w.tracked.chain.pos x hx
          · have : e ∈ c1.entries := by rw [j1]; simp [he]
            rw [g4] at this
            simp only [List.mem_append, List.mem_cons] at this
            rcases this with h9 | rfl | h9
            · exact w.tracked.chain.pos e (g1.sublist.subset (by simp [h9]))
            · show 0 < m + 1; omega
            · exact w.tracked.chain.pos e (g1.sublist.subset (by simp [h9]))
          · omega
        · simp only [List.mem_singleton] at he
          rw [he]; omega
      · intro e he
        rcases List.mem_append.1 he with he | he
        · exact j4 e he
        · simp only [List.mem_singleton] at he
          rw [he]
          exact ⟨_, j3, by rw [j2]; exact hnew⟩
    · rw [j2]
      refine j5.pending (fun x hx => ?_) (fun q hq hlt => ?_) f2
      · have := hsp'.2.1.1 x hx; omega
      · rcases List.mem_cons.1 hq with rfl | hq
        · obtain ⟨e, he, hle'⟩ := hlt
          have := j6 e he
          omega
        · exact f3 q hq
  refine ⟨c1, _, k1, f1, k3, hT, ?_⟩
  rw [w.effort_eq]
  rcases f6 with rfl | rfl
  · have := effort_rest (c := { c1 with frontier := F' }) (t := r.text) (rest := F') rfl
    omega
  · have hlast : lastEntry { c1 with frontier := (m + 1) :: rest } (m + 1) = m + 1 := by
      rw [lastEntry_spec (pre := pre' ++ [e']) (post := post') (n := m + 1) (by show c1.entries = _; rw [j1]; simp)]
      · rw [lastLine_concat, j2]
      · intro x hx
        rcases List.mem_append.1 hx with hx | hx
        · have := hsp'.2.2 x hx e' (by simp); omega
        · simp only [List.mem_singleton] at hx
          rw [hx]; omega
      · intro x hx
        have := hsp'.2.1.1 x hx; omega
    rw [Plugin.effort]
    simp only [hlast]
    omega

/-- One step of the highlighter. -/
theorem highlight_spec (hl : h.Lawful) (ht : Tracked h c r.text) (hr : Reading source size r c.buf.rev) (ha : Answers source size c.buf.rev r) (rng : Nat → Nat) :
    ∃ c' more, highlightOneLine h source size rng c = some (c', more) ∧ c'.buf.rev = c.buf.rev ∧ Tracked h c' r.text ∧ (c.frontier = [] → c' = c) ∧
      (c.frontier ≠ [] → effort c' r.text < effort c r.text) := by
  rw [highlightOneLine, getFrontier]
  have hd : c.frontier = [] ∨ ∃ p rest, c.frontier = p :: rest := by cases c.frontier <;> simp
  rcases hd with hf | ⟨p, rest, hf⟩
  · rw [show c.frontier.head? = none by rw [hf]; rfl]
    exact ⟨c, false, rfl, rfl, ht, fun _ => rfl, fun h => absurd hf h⟩
  · have hne : c.frontier ≠ [] := by rw [hf]; simp
    rw [show c.frontier.head? = some p by rw [hf]; rfl]
    obtain ⟨pre, post, m, s, off, w, hprev⟩ := atWork hl ht hf
    simp only [hprev]
    have hmc := w.le_count
    obtain ⟨b, x, k1, k2, k3⟩ := getLine_spec hr ht.placed.coh (n := m) (Nat.lt_succ_of_le hmc)
    obtain rfl : x = some (lineText r.text m) := by
      rcases k3 with k3 | ⟨-, k3⟩
      · exact k3
      · exact absurd ha k3
    rw [k1]
    have w' : AtWork h { c with buf := b } r.text p rest pre post m s :=
      ⟨⟨ht.placed.buf k2.coh, ht.sorted, ht.bound, ht.chain⟩, hf, w.entries, w.before, w.after, w.le, w.atEnd, w.right, w.state⟩
    have hrev : b.rev = c.buf.rev := k2.rev
    have hclose : Chain h r.text rest m s post → ∃ c' more, (do return (← closeFrontier { c with buf := b }, false) : Option (StateCache S × Bool)) = some (c', more) ∧
        c'.buf.rev = c.buf.rev ∧ Tracked h c' r.text ∧ (c.frontier = [] → c' = c) ∧ (c.frontier ≠ [] → effort c' r.text < effort c r.text) := by
      intro hc
      obtain ⟨j1, j2⟩ := w'.close hc
      rw [j1]
      refine ⟨_, _, rfl, hrev, j2, fun h => absurd h hne, fun _ => ?_⟩
      rw [w.effort_eq]
      have : effort { c with buf := b, frontier := rest } r.text ≤ rest.length * (r.text.count newline + 1) :=
        effort_rest (c := { c with buf := b, frontier := rest }) (t := r.text) rfl
      show effort { c with buf := b, frontier := rest } r.text < _
      omega
    simp only [highlightRead]
    by_cases hm : m < r.text.count newline
    · rw [if_pos ((lineText_ends hmc).2 hm), settle]
      have hstore : ∃ c' more, (do
          let c ← StateCache.set source size rng { c with buf := b } (m + 1) (h.step s (lineText r.text m))
          return (← c.updateFrontier (m + 1), true) : Option (StateCache S × Bool)) = some (c', more) ∧
          c'.buf.rev = c.buf.rev ∧ Tracked h c' r.text ∧ (c.frontier = [] → c' = c) ∧ (c.frontier ≠ [] → effort c' r.text < effort c r.text) := by
        obtain ⟨c1, c', j1, j2, j3, j4, j5⟩ := w'.store hl (by rw [hrev]; exact hr) (by rw [hrev]; exact ha) hm rng
        rw [j1]
        simp only [Option.bind_eq_bind, Option.bind_some, j2]
        refine ⟨c', true, rfl, by rw [j3]; exact hrev, j4, fun h => absurd h hne, fun _ => ?_⟩
        rw [w'.effort_eq] at j5
        rw [w.effort_eq]
        exact j5
      rcases get_spec w'.tracked.placed (m + 1) with ⟨e, old, g1, g2, g3, g4⟩ | ⟨g1, g2⟩
      · rw [g4]
        simp only
        by_cases hsame : h.same old (h.step s (lineText r.text m)) = true
        · rw [if_pos hsame]
          apply hclose
          have hchain := ht.chain
          rw [w.entries, chain_append, w.atEnd, hf] at hchain
          have hin : e ∈ post := by
            have g1 : e ∈ c.entries := g1
            rw [w.entries] at g1
            rcases List.mem_append.1 g1 with g1 | g1
            · have := w.before e g1; omega
            · exact g1
          cases hpost : post with
          | nil => rw [hpost] at hin; simp at hin
          | cons x post1 =>
            have hsp := ht.placed.sorted
            rw [w.entries, hpost, List.pairwise_append, List.pairwise_cons] at hsp
            have hple := w.le
            have hx := w.after x (by rw [hpost]; simp)
            have hex : e = x := by
              rw [hpost] at hin
              rcases List.mem_cons.1 hin with hin | hin
              · exact hin
              · have := hsp.2.1.1 e hin; omega
            subst hex
            rw [hpost] at hchain
            obtain ⟨s', a1, a2, a3, a4⟩ := hchain.2
            obtain rfl : s' = old := by rw [g3] at a1; exact (Option.some.inj a1).symm
            refine ⟨s', a1, a2, .inl ?_, ?_⟩
            · rw [g2, show m + 1 - m = 1 by omega]
              exact hsame
            · refine a4.mono (N := lastLine post1) (fun _ _ => rfl) (fun q hq hle _ => ?_) (fun y hy => lastLine_ge hsp.2.1.2 hy)
              rcases List.mem_cons.1 hq with rfl | hq
              · omega
              · exact hq
        · rw [if_neg hsame]
          exact hstore
      · rw [g2]
        exact hstore
    · rw [if_neg (fun hc => hm ((lineText_ends hmc).1 hc))]
      apply hclose
      cases hpost : post with
      | nil => trivial
      | cons x post1 =>
        have h1 := w.after x (by rw [hpost]; simp)
        have h2 := ht.placed.line x (by rw [w.entries, hpost]; simp)
        have := w.le
        omega

theorem getPrev_le (hp : Placed c r.text) (s0 : S) (p : Nat) : (c.getPrev s0 p).1 ≤ r.text.count newline := by
  rcases Nat.eq_zero_or_pos p with rfl | h0
  · simp [getPrev]
  · obtain ⟨pre, post, h1, h2, h3⟩ := split_sorted hp.sorted p
    obtain ⟨off, h4, -⟩ := getPrev_spec hp s0 (.inl h0) h1 h2 h3
    rw [h4]
    rcases List.eq_nil_or_concat pre with rfl | ⟨pre', e, rfl⟩
    · simp [endAt]
    · rw [List.concat_eq_append] at h1 ⊢
      have he : e ∈ c.entries := by rw [h1]; simp
      obtain ⟨s, hs⟩ := Option.isSome_iff_exists.1 (hp.state e he)
      rw [endAt_concat _ _ _ _ _ hs]
      exact hp.line e he

/-- A step of the highlighter succeeds, whatever is pending and whether or not the peer answers. -/
theorem highlight_placed (h : Highlighter S) (hp : Placed c r.text) (hr : Reading source size r c.buf.rev) (rng : Nat → Nat) :
    ∃ c' more, highlightOneLine h source size rng c = some (c', more) ∧ c'.buf.rev = c.buf.rev ∧ Placed c' r.text := by
  rw [highlightOneLine, getFrontier]
  have hd : c.frontier = [] ∨ ∃ p rest, c.frontier = p :: rest := by cases c.frontier <;> simp
  rcases hd with hf | ⟨p, rest, hf⟩
  · rw [show c.frontier.head? = none by rw [hf]; rfl]
    exact ⟨c, false, rfl, rfl, hp⟩
  · rw [show c.frontier.head? = some p by rw [hf]; rfl]
    have hmc := getPrev_le hp h.init p
    obtain ⟨m, off, s, hprev⟩ : ∃ m off s, c.getPrev h.init p = (m, off, s) := ⟨_, _, _, rfl⟩
    rw [hprev] at hmc
    simp only at hmc
    simp only [hprev]
    obtain ⟨b, x, k1, k2, -⟩ := getLine_spec hr hp.coh (n := m) (Nat.lt_succ_of_le hmc)
    rw [k1]
    have hp' : Placed { c with buf := b } r.text := hp.buf k2.coh
    have hclose : ∃ c' more, (do return (← closeFrontier { c with buf := b }, false) : Option (StateCache S × Bool)) = some (c', more) ∧ c'.buf.rev = c.buf.rev ∧ Placed c' r.text := by
      rw [closeFrontier]
      simp only [hf]
      exact ⟨_, _, rfl, k2.rev, hp'.frontier rest⟩
    cases x with
    | none => exact hclose
    | some x =>
      simp only [highlightRead]
      split
      · rw [settle]
        have hstore : ∃ c' more, (do
            let c ← StateCache.set source size rng { c with buf := b } (m + 1) (h.step s x)
            return (← c.updateFrontier (m + 1), true) : Option (StateCache S × Bool)) = some (c', more) ∧ c'.buf.rev = c.buf.rev ∧ Placed c' r.text := by
          obtain ⟨o, ho⟩ := getLine_next k1
          obtain ⟨c1, j1, j2, j3, j4, -⟩ := set_known (source := source) (size := size) hp' rng (n := m + 1) (by omega) (h.step s x) (offsetOfLine_known k2.coh (by omega) ho) ⟨k2.coh, rfl⟩
          rw [j1]
          simp only [Option.bind_eq_bind, Option.bind_some, updateFrontier, j4, hf]
          exact ⟨_, _, rfl, by rw [← k2.rev]; exact j3, j2.frontier _⟩
        cases StateCache.get { c with buf := b } (m + 1) with
        | none => exact hstore
        | some old =>
          simp only
          by_cases hs : h.same old (h.step s x) = true
          · rw [if_pos hs]; exact hclose
          · rw [if_neg hs]; exact hstore
      · exact hclose

end

end Plugin

end Xi
