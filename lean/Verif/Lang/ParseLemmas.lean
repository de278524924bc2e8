import Verif.Lang.TurnLemmas
import Verif.Lang.StateStackLemmas
/-!
# What the parser answers
-/

namespace Xi

namespace Lang

theorem starts_ascii {P : Nat → Prop} (hP : ∀ b, P b → b < 128) {p : Peg} (h : Starts P p) : Ascii p := by
  intro s n hs
  obtain ⟨b, s', e, hb⟩ := h s n hs
  exact ⟨b, s', e, hP b hb⟩

theorem ascii_none {p : Peg} (h : Ascii p) {b : Nat} (hb : 128 ≤ b) (t : Bytes) : p (b :: t) = none := by
  cases hp : p (b :: t) with
  | none => rfl
  | some n =>
    obtain ⟨b', s', e, hb'⟩ := h _ _ hp
    cases e
    omega

theorem turn_wide (total : Nat) {b : Nat} (hb : 128 ≤ b) (t : Bytes) : turn total (b :: t) = .skip 1 := by
  have h1 : lit (bytes "/*") (b :: t) = none := ascii_none (lit_ascii (by decide +kernel) (by decide +kernel)) hb t
  have h2 : lit (bytes "//") (b :: t) = none := ascii_none (lit_ascii (by decide +kernel) (by decide +kernel)) hb t
  have hdig : ∀ b, isDigit b = true → b < 128 := fun b h => (numByte_lt (isDigit_num h)).1
  have h3 : numericLiteral (b :: t) = none := ascii_none (optional_ascii_seq (byte_ascii (by decide)) (starts_ascii hdig positive_starts)) hb t
  have h4 : charLiteral (b :: t) = none := ascii_none (seq3_ascii (byte_ascii (by decide))) hb t
  have h5 : oneOf (rustOperators.map (fun w => lit (bytes w))) (b :: t) = none := by
    apply ascii_none _ hb t
    apply oneOf_ascii
    intro p hp
    simp only [List.mem_map] at hp
    obtain ⟨w, hw, rfl⟩ := hp
    have : ∀ w ∈ rustOperators, (∀ b ∈ bytes w, b < 128) ∧ bytes w ≠ [] := by decide +kernel
    exact lit_ascii (this w hw).1 (this w hw).2
  have h6 : ident (b :: t) = none := ascii_none (seq_ascii (oneByte_ascii (fun b h => (isIdentContinue_lt (by simp [isIdentContinue, h])).1))) hb t
  have h7 : whitespace (b :: t) = none := by
    apply ascii_none _ hb t
    apply oneOrMore_ascii
    apply oneOf_ascii
    intro p hp
    simp only [List.mem_map] at hp
    obtain ⟨x, hx, rfl⟩ := hp
    exact byte_ascii (isSpace_lt hx).1
  have h8 : ¬ (b :: t).getD 0 0 = ch '"' := by
    have : ch '"' = 34 := rfl
    simp
    omega
  simp only [turn, h1, h2, h3, h4, h5, h6, h7, h8, Option.isSome_none, Bool.false_eq_true, if_false]

theorem codeScan_wide (ctx : Context StateEl) (state total : Nat) {s : Bytes} (hs : ∀ x ∈ s, 128 ≤ x) (fuel i : Nat) (t : Bytes) (hf : s.length ≤ fuel) :
    codeScan ctx state total fuel i (s ++ t) = codeScan ctx state total (fuel - s.length) (i + s.length) t := by
  induction s generalizing fuel i with
  | nil => simp
  | cons b s ih =>
    cases fuel with
    | zero => simp at hf
    | succ fuel =>
      simp only [List.length_cons] at hf
      rw [List.cons_append, codeScan, turn_wide total (hs b List.mem_cons_self)]
      simp only [List.drop_succ_cons, List.drop_zero]
      rw [ih (fun x hx => hs x (List.mem_cons_of_mem _ hx)) fuel (i + 1) (by omega)]
      simp only [List.length_cons]
      congr 1 <;> omega

theorem strScan_wide (ctx : Context StateEl) (state : Nat) {s : Bytes} (hs : ∀ x ∈ s, 128 ≤ x) (i : Nat) (t : Bytes) :
    strScan ctx state i (s ++ t) = strScan ctx state (i + s.length) t := by
  induction s generalizing i with
  | nil => simp
  | cons b s ih =>
    have h1 : ¬ b = ch '"' := by
      have : ch '"' = 34 := rfl
      have := hs b List.mem_cons_self
      omega
    have h2 : ¬ b = ch '\\' := by
      have : ch '\\' = 92 := rfl
      have := hs b List.mem_cons_self
      omega
    rw [List.cons_append, strScan, if_neg h1, if_neg h2, ih (fun x hx => hs x (List.mem_cons_of_mem _ hx))]
    simp only [List.length_cons]
    congr 1
    omega

theorem commentScan_wide (ctx : Context StateEl) (state : Nat) {s : Bytes} (hs : ∀ x ∈ s, 128 ≤ x) (i : Nat) (t : Bytes) :
    commentScan ctx state i (s ++ t) = commentScan ctx state (i + s.length) t := by
  induction s generalizing i with
  | nil => simp
  | cons b s ih =>
    have hb := hs b List.mem_cons_self
    have h1 : lit (bytes "/*") (b :: (s ++ t)) = none := ascii_none (lit_ascii (by decide +kernel) (by decide +kernel)) hb _
    have h2 : lit (bytes "*/") (b :: (s ++ t)) = none := ascii_none (lit_ascii (by decide +kernel) (by decide +kernel)) hb _
    rw [List.cons_append, commentScan, h1]
    simp only
    rw [h2]
    simp only
    rw [ih (fun x hx => hs x (List.mem_cons_of_mem _ hx))]
    simp only [List.length_cons]
    congr 1
    omega

theorem codeScan_answer {ctx : Context StateEl} {stacks : List (Nat × List StateEl)} (hg : Grown ctx stacks) {state : Nat} (hs : (state, []) ∈ stacks)
    (fuel : Nat) (pre cs : List Char) (hne : pre ++ cs ≠ []) (hf : (encode cs).length ≤ fuel) (hr : readMode .code 0 (pre ++ cs) = readMode .code 0 cs) :
    ∃ ctx' r stacks', codeScan ctx state (encode (pre ++ cs)).length fuel (encode pre).length (encode cs) = (ctx', r) ∧ Grown ctx' stacks' ∧ (∀ x ∈ stacks, x ∈ stacks') ∧
      Answer stacks' .code (pre ++ cs) r := by
  induction fuel using Nat.strongRecOn generalizing pre cs with
  | ind fuel ih =>
    cases cs with
    | nil =>
      have e : codeScan ctx state (encode (pre ++ [])).length fuel (encode pre).length (encode []) =
          ((ctx.push state .source).1, ⟨0, (ctx.push state .source).2, (encode (pre ++ [])).length, state⟩) := by
        cases fuel <;> rfl
      refine ⟨_, _, _, e, hg.push hs .source, fun x hx => List.mem_cons_of_mem _ hx, Or.inl ⟨[], pre, [], .code, by simp, by simpa using hne, rfl, by simp, List.mem_cons_of_mem _ hs, ?_, ?_⟩⟩
      · rw [hr]
      · exact Or.inr (Or.inr ⟨rfl, rfl, rfl, List.mem_cons_self⟩)
    | cons c t =>
      have hpos := encode_length_pos (cs := c :: t) (by simp)
      obtain ⟨fuel, rfl⟩ : ∃ k, fuel = k + 1 := ⟨fuel - 1, by omega⟩
      have hturn := turn_spec (encode (pre ++ c :: t)).length c t
      have hstep : codeScan ctx state (encode (pre ++ c :: t)).length (fuel + 1) (encode pre).length (encode (c :: t)) =
          match turn (encode (pre ++ c :: t)).length (encode (c :: t)) with
          | .enter el len => ((ctx.push state el).1, ⟨(encode pre).length, (ctx.push state el).2, len, (ctx.push state el).2⟩)
          | .token el len => ((ctx.push state el).1, ⟨(encode pre).length, (ctx.push state el).2, len, state⟩)
          | .skip len => codeScan ctx state (encode (pre ++ c :: t)).length fuel ((encode pre).length + len) ((encode (c :: t)).drop len) := by
        cases he : encode (c :: t) with
        | nil => rw [he] at hpos; simp at hpos
        | cons b s => rw [codeScan]; rfl
      rw [hstep]
      generalize hcs : c :: t = cs at *
      generalize turn (encode (pre ++ cs)).length (encode cs) = u at *
      cases hturn with
      | comment rest =>
        refine ⟨_, _, _, rfl, hg.push hs .comment, fun x hx => List.mem_cons_of_mem _ hx, Or.inl ⟨pre, ['/', '*'], rest, .comment 0, by simp, by simp, rfl, ?_, List.mem_cons_self, ?_, ?_⟩⟩
        · rfl
        · rw [hr]; simp [readMode]
        · exact Or.inl ⟨.comment, List.mem_cons_self, rfl⟩
      | line rest =>
        refine ⟨_, _, _, rfl, hg.push hs .comment, fun x hx => List.mem_cons_of_mem _ hx, Or.inr ⟨pre, rest, rfl, rfl, rfl, rfl, List.mem_cons_of_mem _ hs, ?_, List.mem_cons_self⟩⟩
        rw [hr]; simp [readMode]
      | quote rest =>
        refine ⟨_, _, _, rfl, hg.push hs .strQuote, fun x hx => List.mem_cons_of_mem _ hx, Or.inl ⟨pre, ['"'], rest, .string, by simp, by simp, rfl, ?_, List.mem_cons_self, ?_, ?_⟩⟩
        · rfl
        · rw [hr]; simp [readMode]
        · exact Or.inl ⟨.strQuote, List.mem_cons_self, rfl⟩
      | @token el b rest hb hel hi hrd =>
        refine ⟨_, _, _, rfl, hg.push hs el, fun x hx => List.mem_cons_of_mem _ hx, Or.inl ⟨pre, b, rest, .code, by simp, hb, rfl, rfl, List.mem_cons_of_mem _ hs, ?_, ?_⟩⟩
        · rw [hr, hrd]
        · exact Or.inl ⟨el, List.mem_cons_self, hi⟩
      | @skip b rest hb hrd =>
        have hp := encode_length_pos hb
        have hl : (encode (b ++ rest)).length = (encode b).length + (encode rest).length := by rw [encode_append, List.length_append]
        have := ih fuel (by omega) (pre ++ b) rest (by simp [hb]) (by omega) (by rw [List.append_assoc, hr, hrd])
        simp only
        rw [List.append_assoc, encode_append pre b, List.length_append] at this
        rw [show (encode (b ++ rest)).drop (encode b).length = encode rest by rw [encode_append, List.drop_left]]
        exact this
      | @wide c' hc rest =>
        rcases encode_head c' rest with ⟨h', _⟩ | ⟨_, b, s, e, ec, hb, hsw⟩
        · omega
        · simp only
          have hlc : (encode [c']).length = s.length + 1 := by rw [encode_cons, ec]; simp [encode]
          have hl : (encode (c' :: rest)).length = s.length + 1 + (encode rest).length := by rw [e]; simp; omega
          have hd : (encode (c' :: rest)).drop 1 = s ++ encode rest := by rw [e]; rfl
          rw [hd, codeScan_wide _ _ _ hsw _ _ _ (by omega)]
          have hne34 : c' ≠ '/' ∧ c' ≠ '"' ∧ c' ≠ '\'' := by
            refine ⟨?_, ?_, ?_⟩ <;> rintro rfl <;> exact absurd hc (by decide)
          have hrd : readMode .code 0 (c' :: rest) = readMode .code 0 rest := readMode_dull (a := [c']) (rest := rest) (fun x hx => by rw [List.mem_singleton.mp hx]; exact hne34)
          have := ih (fuel - s.length) (by omega) (pre ++ [c']) rest (by simp) (by omega) (by rw [List.append_assoc, List.singleton_append, hr, hrd])
          rw [List.append_assoc, encode_append pre [c'], List.length_append, hlc] at this
          rw [show (encode pre).length + 1 + s.length = (encode pre).length + (s.length + 1) by omega]
          exact this

theorem commentScan_answer {ctx : Context StateEl} {stacks : List (Nat × List StateEl)} (hg : Grown ctx stacks) {state d : Nat} (hs : (state, stackOf (.comment d)) ∈ stacks)
    (pre cs : List Char) (hne : pre ++ cs ≠ []) (hr : readMode (.comment d) 0 (pre ++ cs) = readMode (.comment d) 0 cs) :
    ∃ ctx' r stacks', commentScan ctx state (encode pre).length (encode cs) = some (ctx', r) ∧ Grown ctx' stacks' ∧ (∀ x ∈ stacks, x ∈ stacks') ∧
      Answer stacks' (.comment d) (pre ++ cs) r := by
  induction cs generalizing pre with
  | nil =>
    refine ⟨ctx, ⟨0, state, (encode pre).length, state⟩, stacks, rfl, hg, fun x hx => hx, Or.inl ⟨[], pre, [], .comment d, by simp, by simpa using hne, rfl, rfl, hs, hr, ?_⟩⟩
    exact Or.inr (Or.inl ⟨by simp, rfl, hs⟩)
  | cons c t ih =>
    have hlit1 : lit (bytes "/*") (encode (c :: t)) = _ := lit_encode (d := '/') (e := '*') (by decide) (by decide) c t
    have hlit2 : lit (bytes "*/") (encode (c :: t)) = _ := lit_encode (d := '*') (e := '/') (by decide) (by decide) c t
    have hstep : commentScan ctx state (encode pre).length (encode (c :: t)) =
        match lit (bytes "/*") (encode (c :: t)) with
        | some len => some ((ctx.push state .comment).1, ⟨(encode pre).length, (ctx.push state .comment).2, len, (ctx.push state .comment).2⟩)
        | none =>
          match lit (bytes "*/") (encode (c :: t)) with
          | some len => (ctx.pop state).bind (fun p => p.map (fun s => (ctx, ⟨0, state, (encode pre).length + len, s⟩)))
          | none => commentScan ctx state ((encode pre).length + 1) ((encode (c :: t)).drop 1) := by
      have hpos := encode_length_pos (cs := c :: t) (by simp)
      cases he : encode (c :: t) with
      | nil => rw [he] at hpos; simp at hpos
      | cons b s => rw [commentScan]; rfl
    rw [hstep, hlit1]
    by_cases h1 : c = '/' ∧ t.head? = some '*'
    · obtain ⟨rfl, h⟩ := h1
      cases t with
      | nil => cases h
      | cons x t =>
        cases h
        simp only [List.head?_cons, and_self, if_true]
        refine ⟨_, _, _, rfl, hg.push hs .comment, fun x hx => List.mem_cons_of_mem _ hx, Or.inl ⟨pre, ['/', '*'], t, .comment (d + 1), by simp, by simp, rfl, ?_, List.mem_cons_self, ?_, ?_⟩⟩
        · rfl
        · rw [hr]; simp [readMode]
        · exact Or.inl ⟨.comment, List.mem_cons_self, rfl⟩
    · simp only [h1, if_false]
      rw [hlit2]
      by_cases h2 : c = '*' ∧ t.head? = some '/'
      · obtain ⟨rfl, h⟩ := h2
        cases t with
        | nil => cases h
        | cons x t =>
          cases h
          simp only [List.head?_cons, and_self, if_true]
          have hlen : (encode pre).length + 2 = (encode (pre ++ ['*', '/'])).length := by
            rw [encode_append, List.length_append]
            rfl
          cases d with
          | zero =>
            obtain ⟨s', hp, hm⟩ := hg.pop_cons (el := .comment) (st := []) hs
            rw [hp]
            refine ⟨_, _, _, rfl, hg, fun x hx => hx, Or.inl ⟨[], pre ++ ['*', '/'], t, .code, by simp, by simp, rfl, hlen, hm, ?_, Or.inr (Or.inl ⟨by simp, rfl, hs⟩)⟩⟩
            rw [hr]; simp [readMode]
          | succ d =>
            obtain ⟨s', hp, hm⟩ := hg.pop_cons (el := .comment) (st := stackOf (.comment d)) hs
            rw [hp]
            refine ⟨_, _, _, rfl, hg, fun x hx => hx, Or.inl ⟨[], pre ++ ['*', '/'], t, .comment d, by simp, by simp, rfl, hlen, hm, ?_, Or.inr (Or.inl ⟨by simp, rfl, hs⟩)⟩⟩
            rw [hr]; simp [readMode]
      · simp only [h2, if_false]
        have hrd : readMode (.comment d) 0 (c :: t) = readMode (.comment d) 0 t := by simp only [readMode, h1, h2, if_false]
        have hi := ih (pre ++ [c]) (by simp) (by rw [List.append_assoc, List.singleton_append, hr, hrd])
        rw [List.append_assoc, List.singleton_append, encode_append, List.length_append] at hi
        rcases encode_head c t with ⟨hc, e⟩ | ⟨_, b, s, e, ec, hb, hsw⟩
        · rw [encode_ascii (a := [c]) (by simpa using hc)] at hi
          rw [e]
          exact hi
        · have hlc : (encode [c]).length = s.length + 1 := by rw [encode_cons, ec]; simp [encode]
          rw [hlc] at hi
          rw [e, List.drop_succ_cons, List.drop_zero, commentScan_wide _ _ hsw, show (encode pre).length + 1 + s.length = (encode pre).length + (s.length + 1) by omega]
          exact hi

theorem readMode_string_dull {a rest : List Char} (h : ∀ c ∈ a, c ≠ '"' ∧ c ≠ '\\') : readMode .string 0 (a ++ rest) = readMode .string 0 rest := by
  induction a with
  | nil => rfl
  | cons c a ih =>
    obtain ⟨h1, h2⟩ := h c List.mem_cons_self
    rw [List.cons_append, ← ih (fun c hc => h c (List.mem_cons_of_mem _ hc))]
    simp only [readMode, h1, h2, if_false]

theorem badEscape_encode (t : List Char) : badEscape (encode t) =
    match t with
    | [] => none
    | c :: _ => if c ∈ ['\r', '\n', 'b', 'u'] then none else some (encodeChar c).length := by
  cases t with
  | nil => rfl
  | cons c t =>
    have h1 : oneOf ((bytes "\r\nbu").map byte) (encode (c :: t)) = if c ∈ ['\r', '\n', 'b', 'u'] then some 1 else none :=
      oneOf_bytes (ds := ['\r', '\n', 'b', 'u']) (by decide) c t
    rw [badEscape, seq, failIf, h1]
    by_cases h : c ∈ ['\r', '\n', 'b', 'u']
    · simp only [h, if_true]; rfl
    · simp only [h, if_false, Option.bind_some, List.drop_zero]
      rw [oneChar_encode]
      simp

theorem strScan_answer {ctx : Context StateEl} {stacks : List (Nat × List StateEl)} (hg : Grown ctx stacks) {state : Nat} (hs : (state, stackOf .string) ∈ stacks)
    (pre cs : List Char) (hne : pre ++ cs ≠ []) (hr : readMode .string 0 (pre ++ cs) = readMode .string 0 cs) :
    ∃ ctx' r stacks', strScan ctx state (encode pre).length (encode cs) = some (ctx', r) ∧ Grown ctx' stacks' ∧ (∀ x ∈ stacks, x ∈ stacks') ∧
      Answer stacks' .string (pre ++ cs) r := by
  induction cs generalizing pre with
  | nil =>
    refine ⟨ctx, ⟨0, state, (encode pre).length, state⟩, stacks, rfl, hg, fun x hx => hx, Or.inl ⟨[], pre, [], .string, by simp, by simpa using hne, rfl, rfl, hs, hr, ?_⟩⟩
    exact Or.inr (Or.inl ⟨by simp, rfl, hs⟩)
  | cons c t ih =>
    by_cases hq : c = '"'
    · subst hq
      obtain ⟨s', hp, hm⟩ := hg.pop_cons (el := .strQuote) (st := []) hs
      have e : encode ('"' :: t) = ch '"' :: encode t := by
        rcases encode_head '"' t with ⟨_, e⟩ | ⟨h, _⟩
        · exact e
        · exact absurd h (by decide)
      have hlen : (encode pre).length + 1 = (encode (pre ++ ['"'])).length := by
        rw [encode_append, List.length_append]
        rfl
      rw [e, strScan, if_pos rfl, hp]
      refine ⟨_, _, _, rfl, hg, fun x hx => hx, Or.inl ⟨[], pre ++ ['"'], t, .code, by simp, by simp, rfl, hlen, hm, ?_, Or.inr (Or.inl ⟨by simp, rfl, hs⟩)⟩⟩
      rw [hr]; simp [readMode]
    · by_cases hb : c = '\\'
      · subst hb
        have e : encode ('\\' :: t) = ch '\\' :: encode t := by
          rcases encode_head '\\' t with ⟨_, e⟩ | ⟨h, _⟩
          · exact e
          · exact absurd h (by decide)
        have hstep : strScan ctx state (encode pre).length (encode ('\\' :: t)) =
            match escape (encode ('\\' :: t)) with
            | some len => some ((ctx.push state .charConst).1, ⟨(encode pre).length, (ctx.push state .charConst).2, len, state⟩)
            | none =>
              match badEscape (encode t) with
              | some len => some ((ctx.push state .invalid).1, ⟨(encode pre).length + 1, (ctx.push state .invalid).2, len, state⟩)
              | none => strScan ctx state ((encode pre).length + 1) (encode t) := by
          rw [e, strScan, if_neg (by decide), if_pos rfl]
          rfl
        have hlen1 : (encode pre).length + 1 = (encode (pre ++ ['\\'])).length := by
          rw [encode_append, List.length_append]
          rfl
        rw [hstep, escape_encode, badEscape_encode]
        cases hesc : escapeLen t with
        | some n =>
          obtain ⟨k1, k2, k3, k4⟩ := escapeLen_chars hesc
          simp only [Option.map_some]
          refine ⟨_, _, _, rfl, hg.push hs .charConst, fun x hx => List.mem_cons_of_mem _ hx,
            Or.inl ⟨pre, '\\' :: t.take n, t.drop n, .string, by simp, by simp, rfl, ?_, List.mem_cons_of_mem _ hs, ?_, ?_⟩⟩
          · show 1 + n = _
            rw [encode_ascii]
            · simp only [List.length_cons, List.length_take]; omega
            · intro c hc
              rcases List.mem_cons.mp hc with rfl | hc
              · decide
              · exact k3 c hc
          · rw [hr]
            cases t with
            | nil => simp at k1; omega
            | cons x t =>
              obtain ⟨n, rfl⟩ : ∃ k, n = k + 1 := ⟨n - 1, by omega⟩
              have : readMode .string 0 ('\\' :: x :: t) = readMode .string 0 t := by simp [readMode]
              rw [this, List.drop_succ_cons]
              rw [List.take_succ_cons, List.tail_cons] at k4
              have := readMode_string_dull (a := t.take n) (rest := t.drop n) k4
              rwa [List.take_append_drop] at this
          · refine Or.inl ⟨.charConst, List.mem_cons_self, t.take n, rfl, ?_⟩
            rw [List.take_append_drop, hesc, List.length_take]
            congr 1
            omega
        | none =>
          simp only [Option.map_none]
          cases t with
          | nil =>
            simp only
            have hi := ih (pre ++ ['\\']) (by simp) (by simp only [List.append_nil]; rw [hr]; simp [readMode])
            rw [List.append_assoc, List.singleton_append, ← hlen1] at hi
            exact hi
          | cons x t =>
            simp only
            by_cases hx : x ∈ ['\r', '\n', 'b', 'u']
            · simp only [hx, if_true]
              have hxx : x ≠ '"' ∧ x ≠ '\\' := by
                have : ∀ x ∈ ['\r', '\n', 'b', 'u'], x ≠ '"' ∧ x ≠ '\\' := by decide
                exact this x hx
              have hi := ih (pre ++ ['\\']) (by simp) (by
                rw [List.append_assoc, List.singleton_append, hr]
                have h1 : readMode .string 0 ('\\' :: x :: t) = readMode .string 0 t := by simp [readMode]
                rw [h1]
                exact (readMode_string_dull (a := [x]) (rest := t) (by simpa using hxx)).symm)
              rw [List.append_assoc, List.singleton_append, ← hlen1] at hi
              exact hi
            · simp only [hx, if_false]
              refine ⟨_, _, _, rfl, hg.push hs .invalid, fun x hx => List.mem_cons_of_mem _ hx,
                Or.inl ⟨pre ++ ['\\'], [x], t, .string, by simp, by simp, hlen1, ?_, List.mem_cons_of_mem _ hs, ?_, ?_⟩⟩
              · simp [encode]
              · rw [hr]; simp [readMode]
              · exact Or.inl ⟨.invalid, List.mem_cons_self, x, rfl, hx, hesc⟩
      · have hrd : readMode .string 0 (c :: t) = readMode .string 0 t := by simp only [readMode, hq, hb, if_false]
        have hi := ih (pre ++ [c]) (by simp) (by rw [List.append_assoc, List.singleton_append, hr, hrd])
        rw [List.append_assoc, List.singleton_append, encode_append, List.length_append] at hi
        rcases encode_head c t with ⟨hc, e⟩ | ⟨hc, b, s, e, ec, hbw, hsw⟩
        · rw [encode_ascii (a := [c]) (by simpa using hc)] at hi
          have h1 : ¬ c.toNat = ch '"' := fun h => hq (toNat_inj h)
          have h2 : ¬ c.toNat = ch '\\' := fun h => hb (toNat_inj h)
          rw [e, strScan, if_neg h1, if_neg h2]
          exact hi
        · have hlc : (encode [c]).length = s.length + 1 := by rw [encode_cons, ec]; simp [encode]
          rw [hlc] at hi
          have := strScan_wide ctx state (s := b :: s) (by intro x hx; rcases List.mem_cons.mp hx with rfl | hx; exact hbw; exact hsw x hx) (encode pre).length (encode t)
          rw [e, ← List.cons_append, this]
          exact hi

theorem parse_answer {ctx : Context StateEl} {stacks : List (Nat × List StateEl)} (hg : Grown ctx stacks) {state : Nat} {m : Mode} (hs : (state, stackOf m) ∈ stacks)
    {cs : List Char} (hne : cs ≠ []) :
    ∃ ctx' r stacks', parse ctx (encode cs) state = some (ctx', r) ∧ Grown ctx' stacks' ∧ (∀ x ∈ stacks, x ∈ stacks') ∧ Answer stacks' m cs r := by
  have htos := hg.tos hs
  cases m with
  | code =>
    obtain ⟨ctx', r, stacks', h1, h2, h3, h4⟩ := codeScan_answer hg hs (encode cs).length [] cs hne (Nat.le_refl _) rfl
    refine ⟨ctx', r, stacks', ?_, h2, h3, h4⟩
    simp only [parse, htos, stackOf, List.head?_nil]
    exact congrArg some h1
  | comment d =>
    obtain ⟨ctx', r, stacks', h1, h2, h3, h4⟩ := commentScan_answer hg hs [] cs hne rfl
    refine ⟨ctx', r, stacks', ?_, h2, h3, h4⟩
    simp only [parse, htos, stackOf, List.replicate_succ, List.head?_cons]
    exact h1
  | string =>
    obtain ⟨ctx', r, stacks', h1, h2, h3, h4⟩ := strScan_answer hg hs [] cs hne rfl
    refine ⟨ctx', r, stacks', ?_, h2, h3, h4⟩
    simp only [parse, htos, stackOf, List.head?_cons]
    exact h1

end Lang

end Xi
