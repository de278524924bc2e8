import Verif.Lang.ParseLemmas
/-!
# Lemmas on the highlighter
-/

namespace Xi

namespace Lang

theorem mayCut_encode (a b : List Char) : mayCut (encode (a ++ b)) (encode a).length = true := by
  cases b with
  | nil => simp [mayCut]
  | cons c b =>
    have : (encode (a ++ c :: b))[(encode a).length]? = (encode (c :: b))[0]? := by
      rw [encode_append, List.getElem?_append_right (Nat.le_refl _), Nat.sub_self]
    simp only [mayCut, this, Bool.or_eq_true]
    right
    rw [encode_cons]
    rcases encodeChar_cases c with ⟨h, e⟩ | ⟨h, h', e⟩ | ⟨h, h', e⟩ | ⟨h, h', e⟩ <;> rw [e] <;>
      simp only [List.cons_append, List.length_cons, Nat.zero_lt_succ, List.getElem?_eq_getElem, List.getElem_cons_zero, Bool.or_eq_true, decide_eq_true_eq] <;> omega

theorem Grown.scopeFor {ctx : Context StateEl} {stacks : List (Nat × List StateEl)} (h : Grown ctx stacks) {s : Nat} {st : List StateEl} (hs : (s, st) ∈ stacks) (off : Nat) :
    Lang.scopeFor ctx off s = some (match st.head? with | some el => el.scopeId + off | none => off) := by
  rw [Lang.scopeFor, h.tos hs]
  rfl

theorem Tiles.append {a b c : Nat} {s t : List Span} (h1 : Tiles a b s) (h2 : Tiles b c t) : Tiles a c (s ++ t) := by
  induction h1 with
  | nil => exact h2
  | cons hs _ ih => exact .cons hs (ih h2)

theorem scopeId_inj {a b : StateEl} (h : a.scopeId = b.scopeId) : a = b := by
  cases a <;> cases b <;> first | rfl | (exact absurd h (by decide))

theorem head_stackOf (m : Mode) : (stackOf m).head? = none ∨ (stackOf m).head? = some .comment ∨ (stackOf m).head? = some .strQuote := by
  cases m <;> simp [stackOf, List.replicate_succ]

theorem tells_dull {off base : Nat} {cs : List Char} {s : Span} (h : s.scope = off ∨ ∃ el : StateEl, (el = .source ∨ el = .comment ∨ el = .strQuote) ∧ s.scope = el.scopeId + off) : Tells off base cs s := by
  intro el hel he
  exfalso
  have key : el = .source ∨ el = .comment ∨ el = .strQuote := by
    rcases h with h | ⟨el', h1, h2⟩
    · left; apply scopeId_inj; have : StateEl.source.scopeId = 0 := rfl; omega
    · have : el = el' := by apply scopeId_inj; omega
      rw [this]; exact h1
  rcases key with rfl | rfl | rfl <;> exact absurd hel (by decide)

/-- A turn of the loop. -/
theorem syntaxStep_spec {ctx : Context StateEl} {stacks : List (Nat × List StateEl)} (hg : Grown ctx stacks) {state : Nat} {m : Mode} (hs : (state, stackOf m) ∈ stacks)
    (off base : Nat) (pre : List Char) {cs : List Char} (hne : cs ≠ []) :
    ∃ ctx' i' state' more stacks', syntaxStep off base (encode (pre ++ cs)) ctx (encode pre).length state = some (ctx', i', state', more) ∧ Grown ctx' stacks' ∧
      Tiles (base + (encode pre).length) (base + i') more ∧ (∀ s ∈ more, Tells off base (pre ++ cs) s) ∧
      ((∃ b rest m', cs = b ++ rest ∧ b ≠ [] ∧ i' = (encode (pre ++ b)).length ∧ (state', stackOf m') ∈ stacks' ∧ readMode m 0 cs = readMode m' 0 rest) ∨
        (i' ≥ (encode (pre ++ cs)).length ∧ (state', stackOf (readMode m 0 cs)) ∈ stacks' ∧ ∃ a b, cs = a ++ '/' :: '/' :: b)) := by
  obtain ⟨ctx', r, stacks', hp, hg', hsub, hans⟩ := parse_answer hg hs hne
  have hd : (encode (pre ++ cs)).drop (encode pre).length = encode cs := by rw [encode_append, List.drop_left]
  have hz : scopeFor ctx' off 0 = some off := by
    rw [hg'.scopeFor hg'.sound.zero]; rfl
  have hs0 : ∃ st, (r.s0, st) ∈ stacks' ∧ ∀ el ∈ st.head?, el ∉ [StateEl.source, .comment, .strQuote] → ∃ a b rest, cs = a ++ b ++ rest ∧ r.prevlen = (encode a).length ∧ r.len = (encode b).length ∧ Is el b rest := by
    rcases hans with ⟨a, b, rest, m', h1, h2, h3, h4, h5, h6, h7⟩ | ⟨a, rest, h1, h2, h3, h4, h5, h6, h7⟩
    · rcases h7 with ⟨el, h7, h8⟩ | ⟨_, _, h7⟩ | ⟨_, _, _, h7⟩
      · exact ⟨_, h7, fun el' hel' _ => by cases hel'; exact ⟨a, b, rest, h1, h3, h4, h8⟩⟩
      · refine ⟨_, h7, fun el hel hn => ?_⟩
        rcases head_stackOf m with h | h | h <;> rw [h] at hel <;> cases hel <;> exact absurd hn (by decide)
      · exact ⟨_, h7, fun el hel hn => by cases hel; exact absurd hn (by decide)⟩
    · exact ⟨_, h7, fun el hel hn => by cases hel; exact absurd hn (by decide)⟩
  obtain ⟨st, hst, hkind⟩ := hs0
  have hscope := hg'.scopeFor hst off
  have hlen : 0 < r.len := by
    rcases hans with ⟨a, b, rest, m', h1, h2, h3, h4, h5, h6, h7⟩ | ⟨a, rest, h1, h2, h3, h4, h5, h6, h7⟩
    · rw [h4]; exact encode_length_pos h2
    · rw [h4]; exact encode_length_pos hne
  refine ⟨ctx', (encode pre).length + r.prevlen + r.len, r.s1, (if r.prevlen > 0 then [⟨base + (encode pre).length, base + (encode pre).length + r.prevlen, off⟩] else []) ++
    [⟨base + ((encode pre).length + r.prevlen), base + ((encode pre).length + r.prevlen) + r.len, (match st.head? with | some el => el.scopeId + off | none => off)⟩],
    stacks', ?_, hg', ?_, ?_, ?_⟩
  · rw [syntaxStep, if_pos (mayCut_encode pre cs), hd, hp]
    simp only [Option.bind_some, hz, hscope, Option.map_some]
  · split
    · refine .cons (s := ⟨_, _, _⟩) (by simp only; omega) ?_
      simp only [Nat.add_assoc]
      exact .cons (s := ⟨_, _, _⟩) (by simp only; omega) (.nil _)
    · have : r.prevlen = 0 := by omega
      rw [this]
      simp only [Nat.add_zero, List.nil_append, Nat.add_assoc]
      exact .cons (s := ⟨_, _, _⟩) (by simp only; omega) (.nil _)
  · intro s hs'
    rw [List.mem_append] at hs'
    rcases hs' with hs' | hs'
    · split at hs'
      · rw [List.mem_singleton.mp hs']
        exact tells_dull (Or.inl rfl)
      · cases hs'
    · rw [List.mem_singleton.mp hs']
      cases hh : st.head? with
      | none => exact tells_dull (Or.inl rfl)
      | some el =>
        by_cases hel : el ∈ [StateEl.source, .comment, .strQuote]
        · refine tells_dull (Or.inr ⟨el, by simpa using hel, rfl⟩)
        · obtain ⟨a, b, rest, k1, k2, k3, k4⟩ := hkind el hh hel
          intro el' _ he
          have : el' = el := by apply scopeId_inj; simp only at he; omega
          subst this
          refine ⟨pre ++ a, b, rest, by rw [k1]; simp, ?_, ?_, k4⟩
          · simp only [encode_append, List.length_append]; omega
          · simp only [encode_append, List.length_append]; omega
  · rcases hans with ⟨a, b, rest, m', h1, h2, h3, h4, h5, h6, h7⟩ | ⟨a, rest, h1, h2, h3, h4, h5, h6, h7⟩
    · left
      refine ⟨a ++ b, rest, m', h1, by simp [h2], ?_, h5, h6⟩
      simp only [encode_append, List.length_append]; omega
    · right
      refine ⟨?_, ?_, a, rest, h2⟩
      · simp only [encode_append, List.length_append]; omega
      · rw [h6]; exact h5

theorem syntaxGo_spec (off base : Nat) (fuel : Nat) {ctx : Context StateEl} {stacks : List (Nat × List StateEl)} (hg : Grown ctx stacks) {state : Nat} {m : Mode}
    (hs : (state, stackOf m) ∈ stacks) (pre cs : List Char) (spans : List Span) (hf : (encode cs).length < fuel)
    (ht : Tiles base (base + (encode pre).length) spans) (hk : ∀ s ∈ spans, Tells off base (pre ++ cs) s) :
    ∃ ctx' state' spans' stacks' stop, syntaxGo off base (encode (pre ++ cs)) fuel ctx (encode pre).length state spans = some (ctx', state', spans') ∧ Grown ctx' stacks' ∧
      (state', stackOf (readMode m 0 cs)) ∈ stacks' ∧ Tiles base stop spans' ∧ base + (encode (pre ++ cs)).length ≤ stop ∧
      ((∀ a b, cs ≠ a ++ '/' :: '/' :: b) → stop = base + (encode (pre ++ cs)).length) ∧ ∀ s ∈ spans', Tells off base (pre ++ cs) s := by
  induction fuel generalizing ctx stacks state m pre cs spans with
  | zero => omega
  | succ fuel ih =>
    by_cases hne : cs = []
    · subst hne
      refine ⟨ctx, state, spans, stacks, _, ?_, hg, ?_, ht, ?_, ?_, hk⟩
      · rw [syntaxGo, if_neg (by simp)]
      · rw [readMode]; exact hs
      · simp
      · simp
    · obtain ⟨ctx', i', state', more, stacks', h1, hg', h2, h3, h4⟩ := syntaxStep_spec hg hs off base pre hne
      have hpos := encode_length_pos hne
      have hstep : syntaxGo off base (encode (pre ++ cs)) (fuel + 1) ctx (encode pre).length state spans =
          syntaxGo off base (encode (pre ++ cs)) fuel ctx' i' state' (spans ++ more) := by
        rw [syntaxGo, if_pos (by rw [encode_append, List.length_append]; omega), h1]
        rfl
      rw [hstep]
      have hk' : ∀ s ∈ spans ++ more, Tells off base (pre ++ cs) s := by
        intro s hs'
        exact (List.mem_append.mp hs').elim (hk s) (h3 s)
      rcases h4 with ⟨b, rest, m', k1, k2, k3, k4, k5⟩ | ⟨k1, k2, a, b, k3⟩
      · have hb := encode_length_pos k2
        subst k1
        rw [encode_append, List.length_append] at hf
        have := ih hg' k4 (pre ++ b) rest (spans ++ more) (by omega) (by rw [← k3]; exact ht.append h2) (by rw [List.append_assoc]; exact hk')
        rw [List.append_assoc, ← k3] at this
        obtain ⟨c1, c2, c3, c4, c5, d1, d2, d3, d4, d5, d6, d7⟩ := this
        refine ⟨c1, c2, c3, c4, c5, d1, d2, by rw [k5]; exact d3, d4, d5, ?_, d7⟩
        intro hno
        apply d6
        intro a b' e
        exact hno (b ++ a) b' (by rw [e]; simp)
      · obtain ⟨fuel, rfl⟩ : ∃ k, fuel = k + 1 := ⟨fuel - 1, by omega⟩
        refine ⟨ctx', state', spans ++ more, stacks', _, ?_, hg', k2, ht.append h2, by omega, fun hno => absurd k3 (hno a b), hk'⟩
        rw [syntaxGo, if_neg (by omega)]

end Lang

end Xi
