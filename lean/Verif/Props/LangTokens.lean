import Verif.Lang.LookLemmas
/-!
# C94: the tokens of the experimental highlighter

The parser for Rust is given a text that is not empty and a state.  It should never panic, take at least one character, cut the text between characters, never go beyond
its end, and the state of the token should say what the token is.

Refuted: a comment to the end of the line is said to be as long as the whole text, although it does not begin there (`C94_line_refuted`); letters beyond ASCII do not belong
to words, so that the end of a word can be taken for a keyword (`C94_word_refuted`); the operator `=>` is never found (`C94_arrow_refuted`); an escape `\x` may have less than
two digits (`C94_escape_refuted`); and the decoder of UTF-8 accepts a byte that does not continue a character (`C94_decode_refuted`).
-/

namespace Xi

namespace Lang

/-- On any text that is not empty, for any reader, the parser gives an answer (Spec/Lang.lean): it cuts the text between characters, and takes at least one.  Missing from the
property: a comment to the end of the line is said to be too long. -/
theorem C94_parse_partial {ctx : Context StateEl} {stacks : List (Nat × List StateEl)} (hg : Grown ctx stacks) {state : Nat} {m : Mode} (hs : (state, stackOf m) ∈ stacks)
    {cs : List Char} (hne : cs ≠ []) :
    ∃ ctx' r stacks', parse ctx (encode cs) state = some (ctx', r) ∧ Grown ctx' stacks' ∧ (∀ x ∈ stacks, x ∈ stacks') ∧ Answer stacks' m cs r :=
  parse_answer hg hs hne

/-- What is found lies in the text, if there is no comment to the end of the line. -/
theorem C94_within_partial {ctx ctx' : Context StateEl} {stacks : List (Nat × List StateEl)} (hg : Grown ctx stacks) {state : Nat} {m : Mode} (hs : (state, stackOf m) ∈ stacks)
    {cs : List Char} (hne : cs ≠ []) (hno : ∀ a b, cs ≠ a ++ '/' :: '/' :: b) {r : Parsed} (h : parse ctx (encode cs) state = some (ctx', r)) :
    0 < r.len ∧ r.prevlen + r.len ≤ (encode cs).length := by
  obtain ⟨_, _, _, hp, _, _, hans⟩ := parse_answer hg hs hne
  rw [h] at hp
  cases hp
  rcases hans with ⟨a, b, rest, m', h1, h2, h3, h4, _⟩ | ⟨a, rest, _, h2, _⟩
  · have := encode_length_pos h2
    have e := congrArg (fun l => (encode l).length) h1
    simp only [encode_append, List.length_append] at e
    omega
  · exact absurd h2 (hno a rest)

/-- The words on the list are found where they stand by themselves. -/
theorem word_turn (total : Nat) {k : String} {rest : List Char} (hk : k ∈ keywords ∨ k ∈ primTypes) (hrest : ∀ c ∈ rest.head?, ¬ wordChar c) :
    turn total (encode (k.toList ++ rest)) = .token (if k ∈ keywords then .keyword else .primType) k.toList.length := by
  have hall : ∀ k ∈ keywords ++ primTypes, (∃ b s, bytes k = b :: s ∧ isIdentStart b = true) ∧ ∀ b ∈ bytes k, isIdentContinue b = true := by
    have : ∀ k ∈ keywords ++ primTypes, (match bytes k with | b :: _ => isIdentStart b | [] => false) = true ∧ ∀ b ∈ bytes k, isIdentContinue b = true := by decide +kernel
    intro k hk
    obtain ⟨h1, h2⟩ := this k hk
    refine ⟨?_, h2⟩
    cases hb : bytes k with
    | nil => rw [hb] at h1; cases h1
    | cons b s => rw [hb] at h1; exact ⟨b, s, rfl, h1⟩
  obtain ⟨⟨b, s, hb, hstart⟩, hcont⟩ := hall k (by simpa using hk)
  have hasc : ∀ c ∈ k.toList, c.toNat < 128 := fun c hc => (isIdentContinue_lt (hcont _ (List.mem_map_of_mem (f := ch) hc))).1
  have henc : ∀ l : List Char, (∀ c ∈ l, c.toNat < 128) → encode l = l.map ch := by
    intro l hl
    induction l with
    | nil => rfl
    | cons c l ih =>
      rcases encode_head c l with ⟨_, e⟩ | ⟨h, _⟩
      · rw [e, ih (fun c hc => hl c (List.mem_cons_of_mem _ hc))]; rfl
      · have := hl c List.mem_cons_self
        omega
  have hk' : encode k.toList = bytes k := henc _ hasc
  have henc' : encode (k.toList ++ rest) = b :: (s ++ encode rest) := by rw [encode_append, hk', hb]; rfl
  have hlen : (bytes k).length = k.toList.length := by simp [bytes]
  have hnot : ∀ (P : Nat → Prop) (p : Peg), Starts P p → ¬ P b → p (encode (k.toList ++ rest)) = none := by
    intro P p hp hnb
    cases h : p (encode (k.toList ++ rest)) with
    | none => rfl
    | some n =>
      obtain ⟨b', s', e, hb'⟩ := hp _ _ h
      rw [henc'] at e
      cases e
      exact absurd hb' hnb
  have hb0 : ch '/' ≠ b ∧ ch '"' ≠ b ∧ ch '\'' ≠ b := by
    have := isIdentContinue_lt (b := b) (by simp [isIdentContinue, hstart])
    exact ⟨this.2.1.symm, this.2.2.1.symm, this.2.2.2.symm⟩
  have hbd : ¬ (isDigit b = true ∨ b = ch '-') := by
    simp only [isIdentStart, Bool.or_eq_true, Bool.and_eq_true, decide_eq_true_eq] at hstart
    simp only [isDigit, Bool.and_eq_true, decide_eq_true_eq]
    have h1 : ch '9' = 57 := rfl
    have h4 : ch '_' = 95 := rfl
    have h6 : ch 'A' = 65 := rfl
    have h7 : ch 'a' = 97 := rfl
    have h8 : ch '-' = 45 := rfl
    omega
  have l1 : lit (bytes "/*") (encode (k.toList ++ rest)) = none := by
    refine hnot (fun x => ch '/' = x) _ ?_ hb0.1
    have : bytes "/*" = [ch '/', ch '*'] := by decide +kernel
    rw [this, lit_two]
    exact seq_starts (byte_starts rfl)
  have l2 : lit (bytes "//") (encode (k.toList ++ rest)) = none := by
    refine hnot (fun x => ch '/' = x) _ ?_ hb0.1
    have : bytes "//" = [ch '/', ch '/'] := by decide +kernel
    rw [this, lit_two]
    exact seq_starts (byte_starts rfl)
  have l3 : numericLiteral (encode (k.toList ++ rest)) = none := by
    refine hnot (fun x => isDigit x = true ∨ x = ch '-') _ ?_ hbd
    intro s n h
    obtain ⟨a, b', ha, hb', rfl⟩ := seq_some h
    simp only [optional] at ha
    cases hs : byte (ch '-') s with
    | none =>
      rw [hs] at ha
      simp at ha
      subst ha
      obtain ⟨x, y, e, hx⟩ := positive_starts _ _ hb'
      exact ⟨x, y, by simpa using e, Or.inl hx⟩
    | some a =>
      obtain ⟨x, y, e, hx⟩ := byte_starts (P := fun x => x = ch '-') rfl _ _ hs
      exact ⟨x, y, e, Or.inr hx⟩
  have l4 : ¬ (encode (k.toList ++ rest)).getD 0 0 = ch '"' := by
    rw [henc']
    exact fun h => hb0.2.1 h.symm
  have l5 : charLiteral (encode (k.toList ++ rest)) = none := hnot (fun x => ch '\'' = x) _ (seq3_starts (byte_starts rfl)) hb0.2.2
  have l6 : oneOf (rustOperators.map (fun w => lit (bytes w))) (encode (k.toList ++ rest)) = none := by
    refine hnot (fun x => isIdentStart x = false) _ ?_ (by simp [hstart])
    intro s n h
    obtain ⟨p, hp, hn⟩ := oneOf_some h
    simp only [List.mem_map] at hp
    obtain ⟨w, hw, rfl⟩ := hp
    have hops : ∀ w ∈ rustOperators, (match bytes w with | b :: _ => !isIdentStart b | [] => false) = true := by decide +kernel
    have := hops w hw
    simp only [lit] at hn
    split at hn
    · rename_i hc
      cases hbw : bytes w with
      | nil => rw [hbw] at this; cases this
      | cons x xs =>
        rw [hbw] at this hc
        cases s with
        | nil => simp at hc
        | cons y ys =>
          simp only [List.length_cons, List.take_succ_cons, List.cons.injEq] at hc
          exact ⟨y, ys, rfl, by rw [hc.2.1]; simpa using this⟩
    · cases hn
  have l7 : ident (encode (k.toList ++ rest)) = some k.toList.length := by
    rw [henc', ident, seq]
    simp only [oneByte, hstart, if_true, Option.bind_some, List.drop_succ_cons, List.drop_zero, zeroOrMore, Option.map_some]
    have hs' : ∃ l : List Char, s = l.map ch ∧ (∀ c ∈ l, isIdentContinue c.toNat = true) ∧ l.length + 1 = k.toList.length ∧ s = encode l := by
      cases hkl : k.toList with
      | nil => rw [bytes, hkl] at hb; cases hb
      | cons c l =>
        rw [bytes, hkl, List.map_cons] at hb
        cases hb
        refine ⟨l, rfl, ?_, rfl, ?_⟩
        · intro c hc
          exact hcont _ (by rw [bytes, hkl]; exact List.mem_cons_of_mem _ (List.mem_map_of_mem (f := ch) hc))
        · rw [henc l (fun c hc => hasc c (by rw [hkl]; exact List.mem_cons_of_mem _ hc))]
    obtain ⟨l, hl1, hl2, hl3, hl4⟩ := hs'
    have hf : ∀ b, isIdentContinue b = true → b < 128 := fun b hb => (isIdentContinue_lt hb).1
    have e : s ++ encode rest = encode (l ++ rest) := by rw [encode_append, ← hl4]
    rw [e, repeatGo_encode hf]
    have hlen2 : (encode (l ++ rest)).length + 1 ≥ (l ++ rest).length := by
      have : ∀ l : List Char, l.length ≤ (encode l).length := by
        intro l
        induction l with
        | nil => simp
        | cons c l ih =>
          rw [encode_cons, List.length_append]
          obtain ⟨b, s, h, _⟩ := encodeChar_head c
          rw [h]
          simp only [List.length_cons]
          omega
      have := this (l ++ rest)
      omega
    rw [List.take_of_length_le hlen2]
    have htw : (l ++ rest).takeWhile (fun c => isIdentContinue c.toNat) = l := by
      have h0 : rest.takeWhile (fun c => isIdentContinue c.toNat) = [] := by
        cases rest with
        | nil => rfl
        | cons x rest =>
          have := hrest x rfl
          rw [wordChar_eq] at this
          simp [this]
      rw [List.takeWhile_append_of_pos hl2, h0, List.append_nil]
    rw [htw]
    congr 1
    omega
  have htake : (encode (k.toList ++ rest)).take k.toList.length = bytes k := by
    rw [encode_append, hk', ← hlen]
    exact List.take_left
  simp only [turn, l1, l2, l3, l4, l5, l6, l7, htake, Option.isSome_none, Bool.false_eq_true, if_false]
  by_cases hkk : k ∈ keywords
  · simp only [found_keyword (keywords_mem.mpr hkk), hkk, if_true]
  · have hnf : found rustKeywords (bytes k) = false := by
      cases hf : found rustKeywords (bytes k) with
      | false => rfl
      | true =>
        have hc := found_sound (a := k.toList) hf
        rw [String.ofList_toList] at hc
        exact absurd (keywords_mem.mp hc) hkk
    have hp : k ∈ primTypes := hk.resolve_left hkk
    simp only [hnf, found_primType (primTypes_mem.mpr hp), hkk, if_true, if_false, Bool.false_eq_true]

/-- A word on one of the lists, at the beginning of a text and by itself, is found to be a keyword or a type. -/
theorem C94_word {ctx : Context StateEl} {stacks : List (Nat × List StateEl)} (hg : Grown ctx stacks) {state : Nat} (hs : (state, stackOf .code) ∈ stacks)
    {k : String} {rest : List Char} (hk : k ∈ keywords ∨ k ∈ primTypes) (hrest : ∀ c ∈ rest.head?, ¬ wordChar c) :
    ∃ ctx' r stacks', parse ctx (encode (k.toList ++ rest)) state = some (ctx', r) ∧ Grown ctx' stacks' ∧ r.prevlen = 0 ∧ r.len = k.toList.length ∧ r.s1 = state ∧
      (r.s0, [if k ∈ keywords then .keyword else .primType]) ∈ stacks' := by
  have hne : 0 < (encode (k.toList ++ rest)).length := by
    have : ∀ k ∈ keywords ++ primTypes, 0 < k.toList.length := by decide +kernel
    have := this k (by simpa using hk)
    apply encode_length_pos
    intro h
    have h := congrArg List.length h
    rw [List.length_append] at h
    simp only [List.length_nil] at h
    omega
  have ht := word_turn (encode (k.toList ++ rest)).length hk hrest
  have htos := hg.tos hs
  refine ⟨_, ⟨0, (ctx.push state (if k ∈ keywords then .keyword else .primType)).2, k.toList.length, state⟩, _, ?_,
    hg.push hs (if k ∈ keywords then .keyword else .primType), rfl, rfl, rfl, List.mem_cons_self⟩
  simp only [parse, htos, stackOf, List.head?_nil]
  cases he : encode (k.toList ++ rest) with
  | nil => rw [he] at hne; simp at hne
  | cons b s =>
    rw [he] at ht
    simp only [codeScan, List.length_cons] at ht ⊢
    rw [ht]

/-- The parser of numbers finds exactly the numbers (Spec/LangTokens.lean): all bases, underlines, fractions, exponents, suffixes. -/
theorem C94_number (cs : List Char) : numericLiteral (encode cs) = numberLen cs := agrees_number.2 cs

/-- The parser of operators finds the longest operator, `=>` excepted. -/
theorem C94_operator (cs : List Char) : oneOf (rustOperators.map (fun w => lit (bytes w))) (encode cs) = operatorLen cs := agrees_operator.2 cs

/-- In code the parser finds the first token there is, and none other: what comes before it holds no token, its kind and its end are those of the token, and if there is none
the text is said to be code to its end. -/
theorem C94_first {ctx : Context StateEl} {stacks : List (Nat × List StateEl)} (hg : Grown ctx stacks) {state : Nat} (hs : (state, stackOf .code) ∈ stacks) (cs : List Char) :
    ∃ ctx' r stacks', parse ctx (encode cs) state = some (ctx', r) ∧ Grown ctx' stacks' ∧
      match firstToken 0 0 cs with
      | none => r.prevlen = 0 ∧ r.len = (encode cs).length ∧ r.s1 = state ∧ (r.s0, [.source]) ∈ stacks'
      | some (k, el, none) => r.prevlen = (encode (cs.take k)).length ∧ r.len = (encode cs).length ∧ r.s1 = state ∧ (r.s0, [el]) ∈ stacks'
      | some (k, el, some n) => r.prevlen = (encode (cs.take k)).length ∧ r.len = (encode ((cs.drop k).take n)).length ∧
          r.s1 = (if el = .comment ∨ el = .strQuote then r.s0 else state) ∧ (r.s0, [el]) ∈ stacks' := by
  have htos := hg.tos hs
  have hp : parse ctx (encode cs) state = some (answerOf ctx state cs (firstToken 0 0 cs)) := by
    simp only [parse, htos, stackOf, List.head?_nil]
    exact congrArg some (codeScan_first ctx state (encode cs).length [] cs (Nat.le_refl _))
  rw [hp]
  cases firstToken 0 0 cs with
  | none => exact ⟨_, _, _, rfl, hg.push hs .source, rfl, rfl, rfl, List.mem_cons_self⟩
  | some x =>
    obtain ⟨k, el, o⟩ := x
    cases o with
    | none => exact ⟨_, _, _, rfl, hg.push hs el, rfl, rfl, rfl, List.mem_cons_self⟩
    | some n => exact ⟨_, _, _, rfl, hg.push hs el, rfl, rfl, rfl, List.mem_cons_self⟩

example : firstToken 0 0 "é.foo_fn(0x_1Fu8)".toList = some (9, .numericLiteral, some 7) := by
  decide +kernel

/-- The test in the source, rust.rs:383-394. -/
example : ["2.f64", "2.0f64", "2._f64", "2._0f64", "1_2__", "1_2__u8", "1_2__u128", "_1_", "0xff", "0o6789"].map (fun w => numericLiteral (bytes w)) =
    [some 1, some 6, some 1, some 1, some 5, some 7, some 9, none, some 4, some 4] := by decide +kernel

/-- The tables that are searched by bisection are in strictly increasing order, so that the result does not depend on where the search looks first. -/
theorem C94_sorted : (rustKeywords.map bytes).Pairwise (fun a b => cmpBytes a b = .lt) ∧ (rustPrimTypes.map bytes).Pairwise (fun a b => cmpBytes a b = .lt) := by
  decide +kernel

/-- The decoder of UTF-8 finds the character that was encoded. -/
theorem C94_decode (c : Char) (s : Bytes) : decodeUtf8 (encodeChar c ++ s) = some (c, (encodeChar c).length) := decode_encode c s

/-- Whatever the bytes are, the decoder takes at least one and no more than there are. -/
theorem C94_decode_within {s : Bytes} {c : Char} {n : Nat} (h : decodeUtf8 s = some (c, n)) : 0 < n ∧ n ≤ s.length := decode_fits h

/-- Refuted: what the decoder accepts is a character.  It takes the byte `c0`, which never occurs in UTF-8, for the second byte of a character. -/
theorem C94_decode_refuted : decodeUtf8 [0xc2, 0xc0] = some ('À', 2) ∧ ¬ ∃ c s, [0xc2, 0xc0] = encodeChar c ++ s := by
  refine ⟨by decide, ?_⟩
  rintro ⟨c, s, h⟩
  rcases encodeChar_cases c with ⟨h1, e⟩ | ⟨h1, h', e⟩ | ⟨h1, h', e⟩ | ⟨h1, h', e⟩ <;> rw [e] at h <;> simp only [List.cons_append, List.cons.injEq] at h <;> omega

/-- Refuted: a token ends in the text.  The comment in `a//b` is said to have four bytes, from the second on. -/
theorem C94_line_refuted : (parse Context.new (encode "a//b".toList) 0).map (fun x => (x.2.prevlen, x.2.len)) = some (1, 4) ∧ (encode "a//b".toList).length = 4 := by
  decide +kernel

/-- Refuted: a keyword is a word by itself.  In `éfn` the end is taken for one. -/
theorem C94_word_refuted :
    (parse Context.new (encode "éfn".toList) 0).map (fun x => (x.2.prevlen, x.2.len, x.1.tos x.2.s0)) = some (2, 2, some (some .keyword)) := by
  decide +kernel

/-- Refuted: an operator is found as a whole.  Of `=>` only the first half is. -/
theorem C94_arrow_refuted : "=>" ∈ operators ∧
    (parse Context.new (encode "=> x".toList) 0).map (fun x => (x.2.prevlen, x.2.len, x.1.tos x.2.s0)) = some (0, 1, some (some .operator)) := by
  decide +kernel

/-- Refuted: an escape `\x` has two digits. -/
theorem C94_escape_refuted : escape (encode ['\\', 'x', ' ']) = some 2 := by decide +kernel

/-- A text with a keyword, a number, a string and a nested comment. -/
example : parse Context.new (encode "fn é".toList) 0 = some ((Context.new.push 0 .keyword).1, ⟨0, 1, 2, 0⟩) := by decide +kernel

example : ∃ ctx' r stacks', parse Context.new (encode "é 'a' /* ü".toList) 0 = some (ctx', r) ∧ Grown ctx' stacks' ∧ (∀ x ∈ [(0, [])], x ∈ stacks') ∧
    Answer stacks' .code "é 'a' /* ü".toList r :=
  C94_parse_partial .new (by simp [stackOf]) (by decide)

example : "while" ∈ keywords ∧ ∀ c ∈ " x".toList.head?, ¬ wordChar c := by decide +kernel

end Lang

end Xi
