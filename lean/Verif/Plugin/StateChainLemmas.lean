import Verif.Plugin.StateSetLemmas

/-!
# States that follow from one another
-/

namespace Xi

namespace Plugin

variable {S : Type}

open StateCache

/-- The last line and state. -/
def endAt : Nat → S → List (CacheEntry S) → Nat × S
  | m, s, [] => (m, s)
  | _, s, e :: es => endAt e.line (e.state.getD s) es

theorem endAt_concat : ∀ (m : Nat) (s : S) (es : List (CacheEntry S)) (e : CacheEntry S) (s' : S), e.state = some s' → endAt m s (es ++ [e]) = (e.line, s')
  | _, _, [], e, s', h => by simp [endAt, h]
  | _, _, x :: es, e, s', h => by
    rw [List.cons_append, endAt]
    exact endAt_concat _ _ es e s' h

theorem endAt_line : ∀ (m : Nat) (s : S) (es : List (CacheEntry S)), (endAt m s es).1 = (es.getLast?.map (·.line)).getD m
  | _, _, [] => rfl
  | m, s, e :: es => by
    rw [endAt, endAt_line]
    cases es with
    | nil => rfl
    | cons x es => simp [List.getLast?_cons]

theorem endAt_lastLine (s : S) (es : List (CacheEntry S)) : (endAt 0 s es).1 = lastLine es := endAt_line 0 s es

theorem chain_append {h : Highlighter S} {t : List UInt8} {F : List Nat} : ∀ {m : Nat} {s : S} {a b : List (CacheEntry S)},
    Chain h t F m s (a ++ b) ↔ Chain h t F m s a ∧ Chain h t F (endAt m s a).1 (endAt m s a).2 b
  | m, s, [], b => by simp [Chain, endAt]
  | m, s, e :: a, b => by
    simp only [List.cons_append, Chain, endAt]
    constructor
    · rintro ⟨s', h1, h2, h3, h4⟩
      obtain ⟨h5, h6⟩ := chain_append.1 h4
      exact ⟨⟨s', h1, h2, h3, h5⟩, by rw [h1]; exact h6⟩
    · rintro ⟨⟨s', h1, h2, h3, h4⟩, h5⟩
      rw [h1] at h5
      exact ⟨s', h1, h2, h3, chain_append.2 ⟨h4, h5⟩⟩

theorem Chain.pos {h : Highlighter S} {t : List UInt8} {F : List Nat} : ∀ {m : Nat} {s : S} {es : List (CacheEntry S)}, Chain h t F m s es → ∀ e ∈ es, m < e.line
  | _, _, [], _, _, he => by simp at he
  | m, s, x :: es, ⟨s', h1, h2, h3, h4⟩, e, he => by
    rcases List.mem_cons.1 he with rfl | he
    · exact h2
    · exact Nat.lt_trans h2 (h4.pos e he)

/-- Only the lines and the pending places up to the last entry matter. -/
theorem Chain.mono {h : Highlighter S} {t t' : List UInt8} {F F' : List Nat} {N : Nat} : ∀ {m : Nat} {s : S} {es : List (CacheEntry S)}, Chain h t F m s es →
    (∀ n, n < N → lineText t n = lineText t' n) → (∀ p ∈ F, m ≤ p → p < N → p ∈ F') → (∀ e ∈ es, e.line ≤ N) → Chain h t' F' m s es
  | _, _, [], _, _, _, _ => trivial
  | m, s, e :: es, ⟨s', h1, h2, h3, h4⟩, ht, hF, hN => by
    have hle := hN e (by simp)
    refine ⟨s', h1, h2, ?_, h4.mono ht (fun p hp h5 h6 => hF p hp (by omega) h6) (fun x hx => hN x (by simp [hx]))⟩
    rcases h3 with h3 | ⟨p, h5, h6, h7⟩
    · left
      rw [← runLines_text (t := t) _ m m s (fun j hj => ht _ (by omega))]
      exact h3
    · exact .inr ⟨p, hF p h5 h6 (by omega), h6, h7⟩

/-- States further down move with their lines. -/
theorem Chain.shift {h : Highlighter S} {t t' : List UInt8} {F F' : List Nat} {ki kd li ld : Nat} : ∀ {m m' : Nat} {s : S} {es : List (CacheEntry S)},
    Chain h t F m s es → m' + kd = m + ki → (∀ n, m ≤ n → lineText t n = lineText t' (n + ki - kd)) → (∀ p ∈ F, m ≤ p → p + ki - kd ∈ F') →
    Chain h t' F' m' s (es.map (movedEntry ki kd li ld))
  | _, _, _, [], _, _, _, _ => trivial
  | m, m', s, e :: es, ⟨s', h1, h2, h3, h4⟩, hm, ht, hF => by
    refine ⟨s', h1, ?_, ?_, h4.shift (m' := e.line + ki - kd) (by omega) (fun n hn => ht n (by omega)) (fun p hp h5 => hF p hp (by omega))⟩
    · show m' < e.line + ki - kd
      omega
    · show h.same s' (runLines h t' m' (e.line + ki - kd - m') s) = true ∨ _
      rcases h3 with h3 | ⟨p, h5, h6, h7⟩
      · left
        rw [show e.line + ki - kd - m' = e.line - m by omega, ← runLines_text (t := t) _ m m' s]
        · exact h3
        · intro j hj
          rw [ht _ (by omega)]
          congr 1
          omega
      · refine .inr ⟨p + ki - kd, hF p h5 h6, ?_, ?_⟩
        · omega
        · show p + ki - kd < e.line + ki - kd
          omega

/-- The state of an entry is the one computed from the start of the document. -/
def RightEntry (h : Highlighter S) (t : List UInt8) (e : CacheEntry S) : Prop := ∃ s, e.state = some s ∧ h.same s (stateAt h t e.line) = true

/-- Up to the first pending line the states are right. -/
theorem Chain.right {h : Highlighter S} (hl : h.Lawful) {t : List UInt8} {F : List Nat} {q : Nat} (hq : ∀ p ∈ F, q ≤ p) : ∀ {m : Nat} {s : S} {es : List (CacheEntry S)},
    Chain h t F m s es → h.same s (stateAt h t m) = true → ∀ e ∈ es, e.line ≤ q → (∀ x ∈ es, x.line ≤ q) → RightEntry h t e
  | _, _, [], _, _, _, he, _, _ => by simp at he
  | m, s, x :: es, ⟨s', h1, h2, h3, h4⟩, hs, e, he, hle, hall => by
    have hx := hall x (by simp)
    have hx' : h.same s' (stateAt h t x.line) = true := by
      rcases h3 with h3 | ⟨p, h5, h6, h7⟩
      · rw [stateAt_from h t (Nat.le_of_lt h2)]
        exact hl.trans _ _ _ h3 (runLines_same hl t _ _ hs)
      · have := hq p h5
        omega
    rcases List.mem_cons.1 he with rfl | he
    · exact ⟨s', h1, hx'⟩
    · exact h4.right hl hq hx' e he hle (fun y hy => hall y (by simp [hy]))

/-- Right states follow from one another. -/
theorem chain_of_right {h : Highlighter S} (hl : h.Lawful) {t : List UInt8} {F : List Nat} : ∀ {m : Nat} {s : S} {es : List (CacheEntry S)},
    h.same s (stateAt h t m) = true → es.Pairwise (fun a b => a.line < b.line) → (∀ e ∈ es, m < e.line) → (∀ e ∈ es, RightEntry h t e) → Chain h t F m s es
  | _, _, [], _, _, _, _ => trivial
  | m, s, e :: es, hs, hp, hm, hr => by
    obtain ⟨s', h1, h2⟩ := hr e (by simp)
    have hme := hm e (by simp)
    rw [List.pairwise_cons] at hp
    refine ⟨s', h1, hme, .inl ?_, chain_of_right hl h2 hp.2 hp.1 (fun x hx => hr x (by simp [hx]))⟩
    rw [stateAt_from h t (Nat.le_of_lt hme)] at h2
    exact hl.trans _ _ _ h2 (runLines_same hl t _ _ (hl.symm _ _ hs))

/-- An entry can be dropped. -/
theorem Chain.erase {h : Highlighter S} (hl : h.Lawful) {t : List UInt8} {F : List Nat} : ∀ {m : Nat} {s : S} {es : List (CacheEntry S)} (v : Nat),
    Chain h t F m s es → Chain h t F m s (es.eraseIdx v)
  | _, _, [], _, _ => by simp [Chain]
  | m, s, [e], 0, _ => by simp [Chain]
  | m, s, e :: x :: es, 0, ⟨s', h1, h2, h3, s'', h4, h5, h6, h7⟩ => by
    refine ⟨s'', h4, by omega, ?_, h7⟩
    rcases h3 with h3 | ⟨p, g1, g2, g3⟩
    · rcases h6 with h6 | ⟨p, g1, g2, g3⟩
      · left
        rw [show x.line - m = (e.line - m) + (x.line - e.line) by omega, runLines_add, show m + (e.line - m) = e.line by omega]
        exact hl.trans _ _ _ h6 (runLines_same hl t _ _ h3)
      · exact .inr ⟨p, g1, by omega, g3⟩
    · exact .inr ⟨p, g1, g2, by omega⟩
  | m, s, e :: es, v + 1, ⟨s', h1, h2, h3, h4⟩ => ⟨s', h1, h2, h3, h4.erase hl v⟩

theorem Chain.evicted {h : Highlighter S} (hl : h.Lawful) {t : List UInt8} {F : List Nat} {m : Nat} {s : S} {es es' : List (CacheEntry S)} (hc : Chain h t F m s es)
    (he : Evicted es es') : Chain h t F m s es' := by
  rcases he with rfl | ⟨v, rfl⟩
  · exact hc
  · exact hc.erase hl v

/-- From a pending line on. -/
theorem Chain.pending {h : Highlighter S} {t : List UInt8} {F F' : List Nat} {m n : Nat} {s s' : S} {es : List (CacheEntry S)} (hc : Chain h t F m s es)
    (hn : ∀ e ∈ es, n < e.line) (hF : ∀ p ∈ F, (∃ e ∈ es, e.line ≤ p) → p ∈ F') (hmem : n ∈ F') : Chain h t F' n s' es := by
  cases es with
  | nil => trivial
  | cons e es =>
    obtain ⟨s1, h1, h2, h3, h4⟩ := hc
    have hne := hn e (by simp)
    refine ⟨s1, h1, hne, .inr ⟨n, hmem, Nat.le_refl _, hne⟩, ?_⟩
    exact h4.mono (N := lastLine es + e.line + es.foldr (fun x a => x.line + a) 0) (fun _ _ => rfl) (fun p hp hle _ => hF p hp ⟨e, by simp, hle⟩) (by
      have : ∀ {l : List (CacheEntry S)} {x : CacheEntry S}, x ∈ l → x.line ≤ l.foldr (fun x a => x.line + a) 0 := by
        intro l
        induction l with
        | nil => simp
        | cons y l ih =>
          intro x hx
          rcases List.mem_cons.1 hx with rfl | hx
          · simp
          · have := ih hx
            simp only [List.foldr_cons]
            omega
      intro x hx
      have := this hx
      omega)

/-! ## The frontier after an edit -/

/-- The pending line that is kept after the edited place. -/
def keptAfter (next : Option Nat) (delta : Int) : List Nat → List Nat
  | [] => []
  | p :: _ => pendingAfter next delta p

theorem patchLoop_done {n : Nat} {next : Option Nat} {k : Int} : ∀ {F : List Nat}, (∀ p ∈ F, n ≤ p) → patchLoop n next k F false = []
  | [], _ => rfl
  | p :: F, h => by
    rw [patchLoop, if_neg (by have := h p (by simp); omega), if_neg (by simp)]
    exact patchLoop_done (fun q hq => h q (by simp [hq]))

theorem patchLoop_spec {n : Nat} {next : Option Nat} {k : Int} : ∀ {F1 F2 : List Nat}, (∀ p ∈ F1, p < n) → (∀ p ∈ F2, n ≤ p) →
    patchLoop n next k (F1 ++ F2) true = F1 ++ n :: keptAfter next k F2
  | [], [], _, _ => rfl
  | [], p :: F, _, h => by
    rw [List.nil_append, patchLoop, if_neg (by have := h p (by simp); omega), if_pos rfl, patchLoop_done (fun q hq => h q (by simp [hq]))]
    simp [keptAfter]
  | p :: F1, F2, h1, h2 => by
    rw [List.cons_append, patchLoop, if_pos (h1 p (by simp)), patchLoop_spec (fun q hq => h1 q (by simp [hq])) h2]
    rfl

theorem wrappingShift_eq {p ki kd : Nat} (h1 : kd ≤ p + ki) (h2 : p + ki - kd < 2 ^ 64) : wrappingShift p ((ki : Int) - kd) = p + ki - kd := by
  rw [wrappingShift]
  have : ((p : Int) + ((ki : Int) - kd)) = ((p + ki - kd : Nat) : Int) := by omega
  rw [this, show ((2 : Int) ^ 64) = ((2 ^ 64 : Nat) : Int) by norm_cast, ← Int.natCast_emod, Int.toNat_natCast, Nat.mod_eq_of_lt h2]

theorem lineText_edit_left {A D N B : List UInt8} {n : Nat} (h : n < A.count newline) : lineText (A ++ D ++ B) n = lineText (A ++ N ++ B) n := by
  rw [List.append_assoc, List.append_assoc, lineText_left h, lineText_left h]

theorem lineText_edit_right {A D N B : List UInt8} {n : Nat} (h : (A ++ D).count newline < n) :
    lineText (A ++ D ++ B) n = lineText (A ++ N ++ B) (n + N.count newline - D.count newline) := by
  have e1 : (A ++ D).count newline = A.count newline + D.count newline := List.count_append
  have e2 : (A ++ N).count newline = A.count newline + N.count newline := List.count_append
  rw [lineText_right h, lineText_right (by omega)]
  congr 1
  omega

theorem Cut.tracked {h : Highlighter S} {c c' : StateCache S} {A X Y : List UInt8} (hk : Cut c c' A) (ht : Tracked h c (A ++ X)) {b : ChunkCache} (hb : Coherent b (A ++ Y)) :
    Tracked h { c' with buf := b } (A ++ Y) := by
  have hp := hk.placed ht.placed hb
  obtain ⟨pre, post, h1, h2, h3, rfl⟩ := hk
  obtain ⟨F1, F2, f1, f2, f3⟩ := split_nat ht.sorted (lastLine pre)
  have hpre : pre.Pairwise (fun a b : CacheEntry S => a.line < b.line) := by have := ht.placed.sorted; rw [h1] at this; exact (List.pairwise_append.1 this).1
  have hlast : lastLine pre ≤ A.count newline := lastLine_le h2
  have hchain := ht.chain
  rw [h1, chain_append] at hchain
  rw [truncateFrontier_spec f1 ht.sorted f2 f3] at hp ⊢
  have hs := ht.sorted
  rw [f1] at hs
  refine ⟨hp, ?_, ?_, ?_⟩
  · show (F1 ++ [lastLine pre]).Pairwise _
    rw [List.pairwise_append]
    exact ⟨(List.pairwise_append.1 hs).1, by simp, fun a ha b hb => by simp only [List.mem_singleton] at hb; rw [hb]; exact f2 a ha⟩
  · intro p hp
    rw [List.count_append]
    simp only [List.mem_append, List.mem_singleton] at hp
    rcases hp with hp | hp
    · have := f2 p hp; omega
    · omega
  · refine hchain.1.mono (N := lastLine pre) (fun n hn => by rw [lineText_left (by omega), lineText_left (by omega)]) (fun p hp _ hlt => ?_) (fun e he => lastLine_ge hpre he)
    rw [f1] at hp
    rcases List.mem_append.1 hp with hp | hp
    · show p ∈ F1 ++ [lastLine pre]
      simp [hp]
    · have := f3 p hp; omega

theorem Moved.tracked {h : Highlighter S} {c c' : StateCache S} {A D N B : List UInt8} (hk : Moved c c' A D N) (ht : Tracked h c (A ++ D ++ B)) {b : ChunkCache}
    (hb : Coherent b (A ++ N ++ B)) (hsafe : SafeEdit c (A ++ D ++ B) A.length (A ++ D).length N) (hlen : (A ++ N ++ B).length < 2 ^ 64) :
    Tracked h { c' with buf := b } (A ++ N ++ B) := by
  have hp := hk.placed ht.placed hb
  obtain ⟨pre, mid, post, h1, h2, h3, h4, rfl⟩ := hk
  obtain ⟨F1, F2, f1, f2, f3⟩ := split_nat ht.sorted (lastLine pre)
  have e1 : (A ++ D).count newline = A.count newline + D.count newline := List.count_append
  have e2 : (A ++ N).count newline = A.count newline + N.count newline := List.count_append
  have e3 : (A ++ D ++ B).count newline = (A ++ D).count newline + B.count newline := List.count_append
  have e4 : (A ++ N ++ B).count newline = (A ++ N).count newline + B.count newline := List.count_append
  have hcl : (A ++ N ++ B).count newline ≤ (A ++ N ++ B).length := List.count_le_length
  have hs0 := ht.placed.sorted
  rw [h1, List.pairwise_append, List.pairwise_append] at hs0
  have hlast : lastLine pre ≤ A.count newline := lastLine_le h2
  have hs := ht.sorted
  rw [f1] at hs
  have hchain := ht.chain
  rw [h1, chain_append, chain_append] at hchain
  -- what safety says
  have hclear : ∀ e es, post = e :: es → Clear c.frontier (lastLine pre) e.line (e.line + N.count newline - D.count newline) := by
    intro e es he
    have g1 := hsafe e.line
    have t1 : (A ++ D ++ B).take (A ++ D).length = A ++ D := List.take_left' rfl
    have t2 : (A ++ D ++ B).take A.length = A := by rw [List.append_assoc]; exact List.take_left' rfl
    have t3 : part (A ++ D ++ B) A.length (A ++ D).length = D := by rw [part, t1]; exact List.drop_left' rfl
    rw [t1, t2, t3, nextEntry_spec (pre := pre ++ mid) (post := post) h1 (by
        intro x hx
        rcases List.mem_append.1 hx with hx | hx
        · have := h2 x hx; omega
        · exact (h3 x hx).2) h4, lastEntry_spec (pre := pre) (post := mid ++ post) (by rw [h1, List.append_assoc]) h2 (by
        intro x hx
        rcases List.mem_append.1 hx with hx | hx
        · exact (h3 x hx).1
        · have := h4 x hx; omega), he] at g1
    exact g1 rfl
  rw [f1] at hclear
  simp only [f1, patchLoop_spec f2 f3] at hp ⊢
  generalize hnext : (post.map (movedEntry (N.count newline) (D.count newline) N.length D.length)).head?.map (·.line) = next at hp ⊢
  -- the line kept after the edited place
  have hkept : ∀ q ∈ keptAfter next ((N.count newline : Int) - D.count newline) F2, ∃ e es p, post = e :: es ∧ p ∈ F2 ∧ e.line ≤ p ∧ q = p + N.count newline - D.count newline := by
    intro q hq
    cases F2 with
    | nil => simp [keptAfter] at hq
    | cons p F2 =>
      cases post with
      | nil => simp at hnext; subst hnext; simp [keptAfter, pendingAfter] at hq
      | cons e es =>
        have hn : next = some (e.line + N.count newline - D.count newline) := by rw [← hnext]; rfl
        rw [hn] at hq
        simp only [keptAfter, pendingAfter] at hq
        split at hq
        · rename_i hge
          simp only [List.mem_singleton] at hq
          have hle : e.line ≤ p := by
            rcases hclear e es rfl with hc | ⟨q', hc1, hc2, hc3⟩
            · have := hc p (by simp) (f3 p (by simp)); omega
            · rw [hc1 p (by simp) (f3 p (by simp))]; exact hc2
          refine ⟨e, es, p, rfl, by simp, hle, ?_⟩
          have := h4 e (by simp)
          have := ht.bound p (by rw [f1]; simp)
          rw [hq, wrappingShift_eq (by omega) (by omega)]
        · simp at hq
  refine ⟨hp, ?_, ?_, ?_⟩
  · show (F1 ++ lastLine pre :: keptAfter next _ F2).Pairwise _
    rw [List.pairwise_append, List.pairwise_cons]
    have hlt : ∀ q ∈ keptAfter next ((N.count newline : Int) - D.count newline) F2, lastLine pre < q := by
      intro q hq
      obtain ⟨e, es, p, rfl, -, k3, rfl⟩ := hkept q hq
      have := h4 e (by simp)
      omega
    refine ⟨(List.pairwise_append.1 hs).1, ⟨hlt, ?_⟩, ?_⟩
    · cases F2 with
      | nil => simp [keptAfter]
      | cons p F2 =>
        rw [keptAfter, pendingAfter.eq_def]
        split
        · split <;> simp
        · simp
    · intro a ha q hq
      have := f2 a ha
      rcases List.mem_cons.1 hq with rfl | hq
      · exact this
      · have := hlt q hq; omega
  · intro q hq
    show q ≤ (A ++ N ++ B).count newline
    simp only [List.mem_append, List.mem_cons] at hq
    rcases hq with hq | rfl | hq
    · have := f2 q hq; omega
    · omega
    · obtain ⟨e, es, p, rfl, k2, k3, rfl⟩ := hkept q hq
      have := h4 e (by simp)
      have := ht.bound p (by rw [f1]; simp [k2])
      omega
  · show Chain h _ (F1 ++ lastLine pre :: keptAfter next _ F2) 0 h.init (pre ++ _)
    rw [chain_append]
    constructor
    · refine hchain.1.1.mono (N := lastLine pre) (fun n hn => lineText_edit_left (by omega)) (fun p hp _ hlt => ?_) (fun e he => lastLine_ge hs0.1.1 he)
      rw [f1] at hp
      rcases List.mem_append.1 hp with hp | hp
      · simp [hp]
      · have := f3 p hp; omega
    · cases hpost : post with
      | nil => trivial
      | cons e es =>
        rw [hpost] at hchain h4 hnext
        obtain ⟨s1, k1, k2, k3, k4⟩ := hchain.2
        have hel := h4 e (by simp)
        refine ⟨s1, k1, ?_, .inr ⟨lastLine pre, by simp, ?_, ?_⟩, ?_⟩
        · show (endAt 0 h.init pre).1 < e.line + N.count newline - D.count newline
          rw [endAt_lastLine]; omega
        · rw [endAt_lastLine]; exact Nat.le_refl _
        · show lastLine pre < e.line + N.count newline - D.count newline
          omega
        · refine k4.shift (m' := e.line + N.count newline - D.count newline) (by omega) (fun n hn => lineText_edit_right (by omega)) (fun p hp hle => ?_)
          rw [f1] at hp
          have hp2 : p ∈ F2 := by
            rcases List.mem_append.1 hp with hp | hp
            · have := f2 p hp; omega
            · exact hp
          rcases hclear e es hpost with hc | ⟨q, hc1, hc2, hc3⟩
          · have := hc p hp (f3 p hp2); omega
          · have hpq := hc1 p hp (f3 p hp2)
            cases F2 with
            | nil => simp at hp2
            | cons q' F2 =>
              have hq' := hc1 q' (by simp) (f3 q' (by simp))
              have hn : next = some (e.line + N.count newline - D.count newline) := by rw [← hnext]; rfl
              have := ht.bound q' (by rw [f1]; simp)
              simp only [List.mem_append, List.mem_cons]
              right; right
              rw [hn, keptAfter, pendingAfter, if_pos (by omega), wrappingShift_eq (by omega) (by omega)]
              simp only [List.mem_singleton]
              omega

end Plugin

end Xi
