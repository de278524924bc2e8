import Verif.Lang.NumberLemmas
import Verif.Lang.ParseLemmas
/-!
# The first token is exact
-/

namespace Xi

namespace Lang

theorem Agrees.encode_take {p : Peg} {q : List Char → Option Nat} (h : Agrees p q) {cs : List Char} {n : Nat} (hn : q cs = some n) : (encode (cs.take n)).length = n := by
  obtain ⟨a, rest, h1, h2, h3, _⟩ := over_chars (fun _ h => h) h.1 ((h.2 cs).trans hn)
  rw [h1, ← h2, List.take_left, h3, h2]

theorem agrees_oneOf {ws : List String} (hw : ∀ w ∈ ws, ∀ c ∈ w.toList, c.toNat < 128) :
    Agrees (oneOf (ws.map (fun w => lit (bytes w)))) (fun cs => (ws.find? (fun w => w.toList.isPrefixOf cs)).map (·.length)) := by
  constructor
  · apply oneOf_over
    intro p hp
    obtain ⟨w, hw', rfl⟩ := List.mem_map.mp hp
    exact (agrees_lit (hw w hw')).1
  · intro cs
    induction ws with
    | nil => rfl
    | cons w ws ih =>
      have := ih (fun w hw' => hw w (List.mem_cons_of_mem _ hw'))
      simp only [oneOf, List.map_cons, List.findSome?_cons] at this ⊢
      rw [(agrees_lit (hw w List.mem_cons_self)).2, List.find?_cons]
      by_cases hp : w.toList.isPrefixOf cs = true
      · simp only [hp, if_true, Option.map_some]
      · rw [Bool.not_eq_true] at hp
        simp only [hp, Bool.false_eq_true, if_false]
        exact this

theorem operator_order : rustOperators.Pairwise (fun a b => b ≠ "=>" → a.toList.isPrefixOf b.toList = false) := by decide +kernel

theorem operator_lengths : ∀ w ∈ rustOperators, w.toList.length = 1 ∨ w.toList.length = 2 ∨ w.toList.length = 3 := by decide +kernel

theorem operators_find (cs : List Char) : (rustOperators.find? (fun w => w.toList.isPrefixOf cs)).map (·.length) = operatorLen cs := by
  have hP : ∀ n, (decide (n ≤ cs.length ∧ String.ofList (cs.take n) ∈ operators ∧ cs.take n ≠ ['=', '>'])) = true →
      ∃ w ∈ rustOperators, w ≠ "=>" ∧ w.toList = cs.take n ∧ w.toList.isPrefixOf cs = true ∧ w.toList.length = n := by
    intro n h
    obtain ⟨h1, h2, h3⟩ := of_decide_eq_true h
    refine ⟨_, operators_mem.mpr h2, ?_, String.toList_ofList, ?_, ?_⟩
    · intro e
      have := congrArg String.toList e
      rw [String.toList_ofList] at this
      exact h3 (this.trans (by decide))
    · rw [String.toList_ofList]
      exact List.isPrefixOf_iff_prefix.mpr (List.take_prefix _ _)
    · rw [String.toList_ofList, List.length_take]; omega
  cases hf : rustOperators.find? (fun w => w.toList.isPrefixOf cs) with
  | none =>
    symm
    rw [Option.map_none, operatorLen, List.find?_eq_none]
    intro n _ h
    obtain ⟨w, hw, _, _, hp, _⟩ := hP n h
    rw [List.find?_eq_none] at hf
    exact hf w hw hp
  | some w =>
    obtain ⟨hp, as, bs, hl, has⟩ := List.find?_eq_some_iff_append.mp hf
    have hpre := List.isPrefixOf_iff_prefix.mp hp
    have hw : w ∈ rustOperators := by rw [hl]; simp
    obtain ⟨r, hr⟩ := hpre
    have htake : cs.take w.toList.length = w.toList := by rw [← hr, List.take_left]
    have hne : w ≠ "=>" := by
      rintro rfl
      have h1 : "=" ∈ as := by
        have hm : "=" ∈ rustOperators := by decide +kernel
        have hlate : ∀ as bs : List String, rustOperators = as ++ "=>" :: bs → "=" ∈ as := by
          intro as bs h
          have hnot : ¬ "=" ∈ "=>" :: bs := by
            intro hb
            have hpw : rustOperators.Pairwise (fun a b => a = "=>" → b ≠ "=") := by decide +kernel
            rw [h, List.pairwise_append, List.pairwise_cons] at hpw
            rcases List.mem_cons.mp hb with hb | hb
            · exact absurd hb (by decide)
            · exact hpw.2.1.1 _ hb rfl rfl
          rw [h, List.mem_append] at hm
          exact hm.resolve_right hnot
        exact hlate as bs hl
      have := has _ h1
      have h2 : "=".toList.isPrefixOf cs = true := by
        rw [← hr]
        have e1 : "=".toList = ['='] := by decide
        have e2 : "=>".toList = ['=', '>'] := by decide
        rw [e1, e2]
        rfl
      rw [h2] at this
      exact absurd this (by decide)
    have hmax : ∀ n, w.toList.length < n → (decide (n ≤ cs.length ∧ String.ofList (cs.take n) ∈ operators ∧ cs.take n ≠ ['=', '>'])) = false := by
      intro n hn
      rw [Bool.eq_false_iff]
      intro h
      obtain ⟨v, hv, hvne, hve, hvp, hvl⟩ := hP n h
      have hvb : v ∈ bs := by
        rw [hl, List.mem_append, List.mem_cons] at hv
        rcases hv with hv | rfl | hv
        · have := has v hv
          rw [hvp] at this
          exact absurd this (by decide)
        · omega
        · exact hv
      have ho := operator_order
      rw [hl, List.pairwise_append, List.pairwise_cons] at ho
      have := ho.2.1.1 v hvb hvne
      have h2 : w.toList.isPrefixOf v.toList = true := by
        rw [List.isPrefixOf_iff_prefix, hve, ← htake]
        exact List.take_prefix_take_left (by omega)
      rw [h2] at this
      exact absurd this (by decide)
    have hself : (decide (w.toList.length ≤ cs.length ∧ String.ofList (cs.take w.toList.length) ∈ operators ∧ cs.take w.toList.length ≠ ['=', '>'])) = true := by
      rw [decide_eq_true_eq]
      refine ⟨by rw [← hr, List.length_append]; omega, ?_, ?_⟩
      · rw [htake, String.ofList_toList]; exact operators_mem.mp hw
      · rw [htake]
        intro e
        apply hne
        have := congrArg String.ofList e
        rw [String.ofList_toList] at this
        exact this.trans (by decide)
    have hlen : w.length = w.toList.length := by rw [String.length_toList]
    rw [Option.map_some, hlen, operatorLen]
    simp only [List.find?_cons]
    rcases operator_lengths w hw with h1 | h1 | h1 <;> rw [h1] at hself hmax ⊢
    · simp only [hmax 3 (by omega), hmax 2 (by omega), hself]
    · simp only [hmax 3 (by omega), hself]
    · simp only [hself]

theorem agrees_operator : Agrees (oneOf (rustOperators.map (fun w => lit (bytes w)))) operatorLen := by
  have h := agrees_oneOf (ws := rustOperators) (by decide +kernel)
  exact ⟨h.1, fun cs => (h.2 cs).trans (operators_find cs)⟩

theorem letter_word {c : Char} (h : letter c = true) : wordChar c = true := by
  rw [wordChar_eq, isIdentContinue, letter_eq, h]
  rfl

theorem agrees_ident : Agrees ident (fun cs => if (cs.head?.map letter).getD false then some (wordAt cs).length else none) := by
  have h := agrees_seq (agrees_oneByte letter_lt letter_eq) (agrees_zeroOrMore (f := isIdentContinue) (fun b hb => (isIdentContinue_lt hb).1) (fun c => (wordChar_eq c).symm))
  refine ⟨h.1, fun cs => (h.2 cs).trans ?_⟩
  cases cs with
  | nil => rfl
  | cons c t =>
    simp only [wordAt, List.head?_cons, Option.map_some, Option.getD_some]
    by_cases hl : letter c = true
    · simp [hl, List.takeWhile_cons, letter_word hl]
      omega
    · simp [hl]

theorem oneOf_byte (l : List Nat) : oneOf (l.map byte) = oneByte (fun x => decide (x ∈ l)) := by
  funext s
  induction l with
  | nil => cases s <;> simp [oneOf, oneByte]
  | cons b l ih =>
    simp only [oneOf, List.map_cons, List.findSome?_cons] at ih ⊢
    cases s with
    | nil => simp only [byte, oneByte]; exact ih.trans rfl
    | cons x s =>
      by_cases hx : x = b
      · simp [byte, oneByte, hx]
      · have e : byte b (x :: s) = none := by simp [byte, oneByte, hx]
        rw [e]
        simp only
        rw [ih]
        simp [oneByte, hx]

theorem blank_eq (c : Char) : decide (c.toNat ∈ [ch ' ', ch '\t', ch '\n', ch '\r', 0x0b, 0x0c]) = blankChar c := by
  have h : ∀ d : Char, c.toNat = d.toNat ↔ c = d := fun d => ⟨toNat_inj, fun h => by rw [h]⟩
  have e : [ch ' ', ch '\t', ch '\n', ch '\r', 0x0b, 0x0c] = [' ', '\t', '\n', '\r', '\x0b', '\x0c'].map Char.toNat := by decide
  rw [Bool.eq_iff_iff, decide_eq_true_eq, e]
  simp only [blankChar, decide_eq_true_eq, List.map_cons, List.map_nil, List.mem_cons, List.not_mem_nil, or_false, h]

theorem agrees_blank : Agrees whitespace (fun cs => if (cs.head?.map blankChar).getD false then some (cs.takeWhile blankChar).length else none) := by
  have hf : ∀ b, decide (b ∈ [ch ' ', ch '\t', ch '\n', ch '\r', 0x0b, 0x0c]) = true → b < 128 := by
    intro b hb
    have : ∀ b ∈ [ch ' ', ch '\t', ch '\n', ch '\r', 0x0b, 0x0c], b < 128 := by decide
    exact this b (of_decide_eq_true hb)
  have hz := agrees_zeroOrMore hf blank_eq
  refine ⟨?_, ?_⟩
  · rw [whitespace, oneOf_byte]
    exact oneOrMore_over (oneByte_over hf)
  · intro cs
    have hz' := hz.2 cs
    have e : (fun c : Char => decide (c.toNat ∈ [ch ' ', ch '\t', ch '\n', ch '\r', 0x0b, 0x0c])) = blankChar := funext blank_eq
    simp only [zeroOrMore, Option.some.injEq] at hz'
    rw [whitespace, oneOf_byte, oneOrMore, repeatFrom, hz']
    have h2 : (repeatGo (oneByte (fun x => decide (x ∈ [ch ' ', ch '\t', ch '\n', ch '\r', 0x0b, 0x0c]))) ((encode cs).length + 1) (encode cs)).2 =
        (cs.takeWhile blankChar).length := by
      rw [← hz', repeatGo_encode hf]
    rw [h2]
    cases cs with
    | nil => rfl
    | cons c t =>
      simp only [List.head?_cons, Option.map_some, Option.getD_some]
      by_cases hb : blankChar c = true
      · simp [hb, List.takeWhile_cons]
      · simp [hb, List.takeWhile_cons]

theorem isPrefixOf_two (d e : Char) (c : Char) (t : List Char) : [d, e].isPrefixOf (c :: t) = true ↔ c = d ∧ t.head? = some e := by
  cases t with
  | nil => simp [List.isPrefixOf]
  | cons x t =>
    simp only [List.isPrefixOf, Bool.and_true, Bool.and_eq_true, beq_iff_eq, List.head?_cons, Option.some.injEq]
    exact ⟨fun h => ⟨h.1.symm, h.2.symm⟩, fun h => ⟨h.1.symm, h.2.symm⟩⟩

theorem found_iff {ks : List String} (hc : ∀ k ∈ ks, found ks (bytes k) = true) (a : List Char) : found ks (a.map Char.toNat) = decide (String.ofList a ∈ ks) := by
  rw [Bool.eq_iff_iff, decide_eq_true_eq]
  constructor
  · exact found_sound
  · intro h
    have := hc _ h
    rw [bytes, String.toList_ofList] at this
    exact this

/-- What a turn does to the first token. -/
def turnOf (total : Nat) (cs : List Char) : Option (StateEl × Option Nat) → Turn
  | some (el, none) => .token el total
  | some (el, some n) => if el = .comment ∨ el = .strQuote then .enter el (encode (cs.take n)).length else .token el (encode (cs.take n)).length
  | none => .skip (max 1 (wordAt cs).length)

theorem turn_look (total : Nat) (c : Char) (t : List Char) : turn total (encode (c :: t)) = turnOf total (c :: t) (look (c :: t)) := by
  have b1 : bytes "/*" = [ch '/', ch '*'] := by decide +kernel
  have b2 : bytes "//" = [ch '/', ch '/'] := by decide +kernel
  have l1 := lit_encode (d := '/') (e := '*') (by decide) (by decide) c t
  have l2 := lit_encode (d := '/') (e := '/') (by decide) (by decide) c t
  rw [turn, b1, b2, l1, l2, look]
  by_cases h1 : c = '/' ∧ t.head? = some '*'
  · rw [if_pos h1, if_pos ((isPrefixOf_two _ _ _ _).mpr h1)]
    obtain ⟨rfl, ht⟩ := h1
    cases t with
    | nil => cases ht
    | cons x t => cases ht; rfl
  rw [if_neg h1, if_neg (fun h => h1 ((isPrefixOf_two _ _ _ _).mp h))]
  by_cases h2 : c = '/' ∧ t.head? = some '/'
  · rw [if_pos h2, if_pos ((isPrefixOf_two _ _ _ _).mpr h2)]
    rfl
  rw [if_neg h2, if_neg (fun h => h2 ((isPrefixOf_two _ _ _ _).mp h))]
  simp only [Option.isSome_none, Bool.false_eq_true, if_false]
  rw [agrees_number.2]
  cases hn : numberLen (c :: t) with
  | some n => simp [turnOf, agrees_number.encode_take hn]
  | none =>
    simp only
    have hq : (encode (c :: t)).getD 0 0 = ch '"' ↔ c = '"' := by
      rcases encode_head c t with ⟨_, e⟩ | ⟨h, b, s, e, _, hb, _⟩
      · rw [e]
        exact ⟨fun h => toNat_inj h, fun h => by rw [h]; rfl⟩
      · rw [e]
        have h34 : ch '"' = 34 := rfl
        constructor
        · intro h'
          have : b = 34 := h'
          omega
        · rintro rfl
          exact absurd h (by decide)
    by_cases h3 : c = '"'
    · rw [if_pos (hq.mpr h3), if_pos (by simp [h3])]
      subst h3
      rfl
    rw [if_neg (fun h => h3 (hq.mp h)), if_neg (by simp [h3])]
    rw [charLiteral_encode]
    cases hcl : charLen (c :: t) with
    | some n => simp [turnOf]
    | none =>
      simp only [Option.map_none]
      rw [agrees_operator.2]
      cases ho : operatorLen (c :: t) with
      | some n => simp [turnOf, agrees_operator.encode_take ho]
      | none =>
        simp only
        rw [agrees_ident.2]
        have hemp : ∀ l ∈ [keywords, primTypes], String.ofList [] ∉ l := by decide +kernel
        by_cases hl : ((c :: t).head?.map letter).getD false = true
        · have hid : (fun cs : List Char => if (cs.head?.map letter).getD false then some (wordAt cs).length else none) (c :: t) = some (wordAt (c :: t)).length := by simp only [hl, if_true]
          simp only [hl, if_true]
          have hlen := agrees_ident.encode_take hid
          have htk : (encode (c :: t)).take (wordAt (c :: t)).length = (wordAt (c :: t)).map Char.toNat := by
            obtain ⟨a, rest, e1, e2, _, e4, _⟩ := over_chars (fun _ h => h) agrees_ident.1 ((agrees_ident.2 _).trans hid)
            rw [e4]
            congr 1
            have hw : wordAt (c :: t) = (c :: t).take (wordAt (c :: t)).length := by
              simp only [wordAt, hl, if_true]
              exact (List.prefix_iff_eq_take.mp (List.takeWhile_prefix _))
            exact (hw.trans (by rw [← e2, e1, List.take_left])).symm
          rw [htk, found_iff (fun k hk => found_keyword hk), found_iff (fun k hk => found_primType hk)]
          simp only [keywords_mem, primTypes_mem, decide_eq_true_eq]
          by_cases hk : String.ofList (wordAt (c :: t)) ∈ keywords
          · simp only [hk, if_true, turnOf, hlen]
            rfl
          · by_cases hpt : String.ofList (wordAt (c :: t)) ∈ primTypes
            · simp only [hk, hpt, if_true, if_false, turnOf, hlen]
              rfl
            · have hbl : ¬ ((c :: t).head?.map blankChar).getD false = true := by
                intro hb
                simp only [List.head?_cons, Option.map_some, Option.getD_some] at hl hb
                have : ∀ d ∈ [' ', '\t', '\n', '\r', '\x0b', '\x0c'], letter d = false := by decide
                simp only [blankChar, decide_eq_true_eq] at hb
                rw [this c hb] at hl
                cases hl
              simp only [hk, hpt, hbl, if_false, turnOf]
              have : 1 ≤ (wordAt (c :: t)).length := by
                simp only [List.head?_cons, Option.map_some, Option.getD_some] at hl
                simp [wordAt, hl, List.takeWhile_cons, letter_word hl]
              congr 1
              omega
        · have hw : wordAt (c :: t) = [] := by simp only [wordAt, hl]; rfl
          simp only [hl]
          rw [if_neg (by simp), hw, if_neg (hemp _ (by simp)), if_neg (hemp _ (by simp))]
          simp only
          rw [agrees_blank.2]
          by_cases hb : ((c :: t).head?.map blankChar).getD false = true
          · have hbs : (fun cs : List Char => if (cs.head?.map blankChar).getD false then some (cs.takeWhile blankChar).length else none) (c :: t) = some ((c :: t).takeWhile blankChar).length := by simp only [hb, if_true]
            simp only [hb, if_true, turnOf, agrees_blank.encode_take hbs]
            rfl
          · simp only [hb, turnOf, hw]
            rfl

theorem look_wide {c : Char} (hc : 128 ≤ c.toNat) (t : List Char) : look (c :: t) = none ∧ wordAt (c :: t) = [] := by
  rcases encode_head c t with ⟨h, _⟩ | ⟨_, b, s, e, _, hb, _⟩
  · omega
  have hw : wordAt (c :: t) = [] := by
    have : letter c = false := by
      rw [← letter_eq]
      cases h : isIdentStart c.toNat with
      | false => rfl
      | true => have := letter_lt _ h; omega
    simp [wordAt, this]
  have h := turn_look 0 c t
  rw [e, turn_wide 0 hb] at h
  refine ⟨?_, hw⟩
  cases hl : look (c :: t) with
  | none => rfl
  | some x =>
    rw [hl] at h
    obtain ⟨el, o⟩ := x
    cases o with
    | none => cases h
    | some n => simp only [turnOf] at h; split at h <;> cases h

/-- What the parser answers in code, from the first token. -/
def answerOf (ctx : Context StateEl) (state : Nat) (cs : List Char) : Option (Nat × StateEl × Option Nat) → Context StateEl × Parsed
  | none => ((ctx.push state .source).1, ⟨0, (ctx.push state .source).2, (encode cs).length, state⟩)
  | some (k, el, none) => ((ctx.push state el).1, ⟨(encode (cs.take k)).length, (ctx.push state el).2, (encode cs).length, state⟩)
  | some (k, el, some n) => ((ctx.push state el).1, ⟨(encode (cs.take k)).length, (ctx.push state el).2, (encode ((cs.drop k).take n)).length,
      if el = .comment ∨ el = .strQuote then (ctx.push state el).2 else state⟩)

theorem firstToken_skip (a rest : List Char) (i : Nat) : firstToken a.length i (a ++ rest) = firstToken 0 (i + a.length) rest := by
  induction a generalizing i with
  | nil => rfl
  | cons c a ih =>
    simp only [List.cons_append, List.length_cons, firstToken]
    rw [ih]
    congr 1
    omega

theorem codeScan_first (ctx : Context StateEl) (state fuel : Nat) (pre cs : List Char) (hf : (encode cs).length ≤ fuel) :
    codeScan ctx state (encode (pre ++ cs)).length fuel (encode pre).length (encode cs) = answerOf ctx state (pre ++ cs) (firstToken 0 pre.length cs) := by
  induction fuel using Nat.strongRecOn generalizing pre cs with
  | ind fuel ih =>
    cases cs with
    | nil => cases fuel <;> rfl
    | cons c t =>
      have hpos := encode_length_pos (cs := c :: t) (by simp)
      obtain ⟨fuel, rfl⟩ : ∃ k, fuel = k + 1 := ⟨fuel - 1, by omega⟩
      have hstep : codeScan ctx state (encode (pre ++ c :: t)).length (fuel + 1) (encode pre).length (encode (c :: t)) =
          match turn (encode (pre ++ c :: t)).length (encode (c :: t)) with
          | .enter el len => ((ctx.push state el).1, ⟨(encode pre).length, (ctx.push state el).2, len, (ctx.push state el).2⟩)
          | .token el len => ((ctx.push state el).1, ⟨(encode pre).length, (ctx.push state el).2, len, state⟩)
          | .skip len => codeScan ctx state (encode (pre ++ c :: t)).length fuel ((encode pre).length + len) ((encode (c :: t)).drop len) := by
        cases he : encode (c :: t) with
        | nil => rw [he] at hpos; simp at hpos
        | cons b s => rw [codeScan]; rfl
      rw [hstep, turn_look, firstToken]
      cases hl : look (c :: t) with
      | some x =>
        obtain ⟨el, o⟩ := x
        cases o with
        | none => simp only [turnOf, answerOf, List.take_left]
        | some n =>
          simp only [turnOf, answerOf, List.take_left, List.drop_left]
          by_cases hel : el = .comment ∨ el = .strQuote
          · simp only [hel, if_true]
          · simp only [hel, if_false]
      | none =>
        simp only [turnOf]
        rcases encode_head c t with ⟨hc, e⟩ | ⟨hc, b, s, e, ec, hb, hsw⟩
        · -- a word or a single character
          by_cases hlet : letter c = true
          · have hid : (fun cs : List Char => if (cs.head?.map letter).getD false then some (wordAt cs).length else none) (c :: t) = some (wordAt (c :: t)).length := by simp [hlet]
            have hw : wordAt (c :: t) = c :: t.takeWhile wordChar := by simp [wordAt, hlet, List.takeWhile_cons, letter_word hlet]
            obtain ⟨r, hr⟩ : ∃ r, t = t.takeWhile wordChar ++ r := by
              obtain ⟨r, hr⟩ := List.takeWhile_prefix wordChar (l := t)
              exact ⟨r, hr.symm⟩
            have hlenw := agrees_ident.encode_take hid
            have hdr := agrees_ident.drop hid
            generalize t.takeWhile wordChar = u at hr hw
            subst hr
            rw [hw] at hlenw hdr ⊢
            have hmax : max 1 (c :: u).length = (c :: u).length := by simp only [List.length_cons]; omega
            have et : (c :: (u ++ r)).take (c :: u).length = c :: u := by rw [← List.cons_append, List.take_left]
            have ed : (c :: (u ++ r)).drop (c :: u).length = r := by rw [← List.cons_append, List.drop_left]
            rw [et] at hlenw
            rw [ed] at hdr
            rw [hmax, hdr]
            have hle : (encode (c :: (u ++ r))).length = (encode (c :: u)).length + (encode r).length := by rw [← List.cons_append, encode_append, List.length_append]
            have hpu : 0 < (c :: u).length := by simp
            have := ih fuel (by omega) (pre ++ c :: u) r (by omega)
            rw [List.append_assoc, List.cons_append, encode_append pre (c :: u), List.length_append, hlenw] at this
            rw [this]
            have hsk := firstToken_skip u r (pre.length + 1)
            simp only [List.length_cons, Nat.add_sub_cancel]
            rw [hsk]
            congr 2
            simp only [List.length_append, List.length_cons]
            omega
          · have hw : wordAt (c :: t) = [] := by simp [wordAt, hlet]
            rw [hw]
            simp only [List.length_nil, Nat.max_zero, Nat.zero_sub]
            rw [encode_drop_ascii hc]
            have hle : (encode (c :: t)).length = 1 + (encode t).length := by rw [e, List.length_cons]; omega
            have := ih fuel (by omega) (pre ++ [c]) t (by omega)
            have h1 : (encode [c]).length = 1 := encode_ascii (a := [c]) (by simpa using hc)
            rw [List.append_assoc, List.singleton_append, encode_append pre [c], List.length_append, h1] at this
            rw [this]
            simp
        · obtain ⟨_, hw⟩ := look_wide hc t
          rw [hw]
          simp only [List.length_nil, Nat.max_zero, Nat.zero_sub]
          have hlc : (encode [c]).length = s.length + 1 := by rw [encode_cons, ec]; simp [encode]
          have hle : (encode (c :: t)).length = s.length + 1 + (encode t).length := by rw [e]; simp; omega
          have hd : (encode (c :: t)).drop 1 = s ++ encode t := by rw [e]; rfl
          rw [hd, codeScan_wide _ _ _ hsw _ _ _ (by omega)]
          have := ih (fuel - s.length) (by omega) (pre ++ [c]) t (by omega)
          rw [List.append_assoc, List.singleton_append, encode_append pre [c], List.length_append, hlc] at this
          rw [show (encode pre).length + 1 + s.length = (encode pre).length + (s.length + 1) by omega, this]
          simp

end Lang

end Xi
