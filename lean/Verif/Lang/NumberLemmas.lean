import Verif.Lang.TurnLemmas
import Verif.Spec.LangTokens
/-!
# Numbers are exact
-/

namespace Xi

namespace Lang

/-- A parser of ASCII does to an encoded text what `q` does to the text. -/
def Agrees (p : Peg) (q : List Char → Option Nat) : Prop := Over (· < 128) p ∧ ∀ cs, p (encode cs) = q cs

theorem Agrees.drop {p : Peg} {q : List Char → Option Nat} (h : Agrees p q) {cs : List Char} {n : Nat} (hn : q cs = some n) : (encode cs).drop n = encode (cs.drop n) := by
  obtain ⟨a, rest, h1, h2, _, _, h5, _⟩ := over_chars (fun _ h => h) h.1 ((h.2 cs).trans hn)
  rw [h5, h1, ← h2, List.drop_left]

theorem Agrees.le {p : Peg} {q : List Char → Option Nat} (h : Agrees p q) {cs : List Char} {n : Nat} (hn : q cs = some n) : n ≤ cs.length := by
  obtain ⟨a, rest, h1, h2, _⟩ := over_chars (fun _ h => h) h.1 ((h.2 cs).trans hn)
  rw [h1, List.length_append]; omega

theorem agrees_seq {p1 p2 : Peg} {q1 q2 : List Char → Option Nat} (h1 : Agrees p1 q1) (h2 : Agrees p2 q2) :
    Agrees (seq p1 p2) (fun cs => (q1 cs).bind (fun n => (q2 (cs.drop n)).map (fun m => n + m))) := by
  refine ⟨seq_over h1.1 h2.1, ?_⟩
  intro cs
  simp only [seq, h1.2]
  cases hq : q1 cs with
  | none => rfl
  | some n => simp only [Option.bind_some, h1.drop hq, h2.2]

theorem agrees_seq3 {p1 p2 p3 : Peg} {q1 q2 q3 : List Char → Option Nat} (h1 : Agrees p1 q1) (h2 : Agrees p2 q2) (h3 : Agrees p3 q3) :
    Agrees (seq3 p1 p2 p3) (fun cs => ((q1 cs).bind (fun n => (q2 (cs.drop n)).map (fun m => n + m))).bind (fun n => (q3 (cs.drop n)).map (fun m => n + m))) := by
  rw [seq3_eq]
  exact agrees_seq (agrees_seq h1 h2) h3

theorem agrees_alt {p1 p2 : Peg} {q1 q2 : List Char → Option Nat} (h1 : Agrees p1 q1) (h2 : Agrees p2 q2) : Agrees (alt p1 p2) (fun cs => (q1 cs).or (q2 cs)) :=
  ⟨alt_over h1.1 h2.1, fun cs => by simp only [alt, h1.2, h2.2]⟩

theorem agrees_alt3 {p1 p2 p3 : Peg} {q1 q2 q3 : List Char → Option Nat} (h1 : Agrees p1 q1) (h2 : Agrees p2 q2) (h3 : Agrees p3 q3) :
    Agrees (alt3 p1 p2 p3) (fun cs => (q1 cs).or ((q2 cs).or (q3 cs))) :=
  ⟨alt3_over h1.1 h2.1 h3.1, fun cs => by simp only [alt3, h1.2, h2.2, h3.2]⟩

theorem agrees_optional {p : Peg} {q : List Char → Option Nat} (h : Agrees p q) : Agrees (optional p) (fun cs => some ((q cs).getD 0)) :=
  ⟨optional_over h.1, fun cs => by simp only [optional, h.2]; cases q cs <;> rfl⟩

theorem agrees_failIf {p : Peg} {q : List Char → Option Nat} (h : Agrees p q) : Agrees (failIf p) (fun cs => if (q cs).isSome then none else some 0) :=
  ⟨failIf_over _ _, fun cs => by simp only [failIf, h.2]; cases q cs <;> rfl⟩

theorem agrees_oneByte {f : Nat → Bool} {g : Char → Bool} (hf : ∀ b, f b = true → b < 128) (hg : ∀ c : Char, f c.toNat = g c) :
    Agrees (oneByte f) (fun cs => if (cs.head?.map g).getD false then some 1 else none) := by
  refine ⟨oneByte_over hf, ?_⟩
  intro cs
  cases cs with
  | nil => rfl
  | cons c t => rw [oneByte_encode hf, hg]; rfl

theorem agrees_byte {d : Char} (hd : d.toNat < 128) : Agrees (byte (ch d)) (fun cs => if cs.head? = some d then some 1 else none) :=
  ⟨byte_over hd, fun cs => byte_head hd cs⟩

theorem agrees_zeroOrMore {f : Nat → Bool} {g : Char → Bool} (hf : ∀ b, f b = true → b < 128) (hg : ∀ c : Char, f c.toNat = g c) :
    Agrees (zeroOrMore (oneByte f)) (fun cs => some (cs.takeWhile g).length) := by
  refine ⟨zeroOrMore_over (oneByte_over hf), ?_⟩
  intro cs
  have hlen : ∀ l : List Char, l.length ≤ (encode l).length := by
    intro l
    induction l with
    | nil => simp
    | cons c l ih =>
      rw [encode_cons, List.length_append]
      obtain ⟨b, s, h, _⟩ := encodeChar_head c
      rw [h]
      simp only [List.length_cons]
      omega
  have := hlen cs
  have e : (fun c : Char => f c.toNat) = g := funext hg
  simp only [zeroOrMore, repeatGo_encode hf, e]
  rw [List.take_of_length_le (by omega)]

theorem agrees_lit {w : String} (hw : ∀ c ∈ w.toList, c.toNat < 128) : Agrees (lit (bytes w)) (fun cs => if w.toList.isPrefixOf cs then some w.length else none) := by
  refine ⟨lit_over (by intro b hb; simp only [bytes, List.mem_map] at hb; obtain ⟨c, hc, rfl⟩ := hb; exact hw c hc), ?_⟩
  intro cs
  have hlen : (bytes w).length = w.length := by rw [bytes, List.length_map, String.length_toList]
  have henc : ∀ l : List Char, (∀ c ∈ l, c.toNat < 128) → encode l = l.map ch := by
    intro l hl
    induction l with
    | nil => rfl
    | cons c l ih =>
      rcases encode_head c l with ⟨_, e⟩ | ⟨h, _⟩
      · rw [e, ih (fun c hc => hl c (List.mem_cons_of_mem _ hc))]; rfl
      · have := hl c List.mem_cons_self
        omega
  have hew : encode w.toList = bytes w := henc _ hw
  simp only [lit]
  by_cases h : w.toList.isPrefixOf cs = true
  · obtain ⟨r, rfl⟩ := List.isPrefixOf_iff_prefix.mp h
    rw [if_pos h, encode_append, hew, hlen, if_pos]
    constructor
    · rw [List.length_append, hlen]; omega
    · rw [← hlen]; exact List.take_left
  · rw [if_neg h, if_neg]
    rintro ⟨h1, h2⟩
    apply h
    obtain ⟨a, rest, ha, hm, _⟩ := split_ascii (List.take_append_drop (bytes w).length (encode cs)).symm
      (by rw [h2]; intro b hb; simp only [bytes, List.mem_map] at hb; obtain ⟨c, hc, rfl⟩ := hb; exact hw c hc)
    rw [h2] at hm
    have : a = w.toList := by
      have inj : ∀ l l' : List Char, l.map Char.toNat = l'.map ch → l = l' := by
        intro l
        induction l with
        | nil => intro l' h; cases l' with | nil => rfl | cons => simp at h
        | cons c l ih =>
          intro l' h
          cases l' with
          | nil => simp at h
          | cons c' l' =>
            simp only [List.map_cons, List.cons.injEq] at h
            rw [toNat_inj h.1, ih _ h.2]
      exact inj _ _ hm
    rw [ha, this]
    exact List.isPrefixOf_iff_prefix.mpr (List.prefix_append _ _)

theorem alt_oneByte (f g : Nat → Bool) : alt (oneByte f) (oneByte g) = oneByte (fun x => f x || g x) := by
  funext s
  cases s with
  | nil => rfl
  | cons b s => by_cases h1 : f b = true <;> by_cases h2 : g b = true <;> simp [alt, oneByte, h1, h2]

theorem digit_eq (c : Char) : isDigit c.toNat = digit c := by
  have e : ∀ d : Char, d ≤ c ↔ d.toNat ≤ c.toNat := fun d => by rw [Char.le_def, UInt32.le_iff_toNat_le]; rfl
  have e' : ∀ d : Char, c ≤ d ↔ c.toNat ≤ d.toNat := fun d => by rw [Char.le_def, UInt32.le_iff_toNat_le]; rfl
  rw [Bool.eq_iff_iff]
  simp only [digit, isDigit, decide_eq_true_eq, Bool.and_eq_true, e, e']
  simp only [ch]

theorem octal_eq (c : Char) : (decide (ch '0' ≤ c.toNat) && decide (c.toNat ≤ ch '7')) = decide ('0' ≤ c ∧ c ≤ '7') := by
  have e : ∀ d : Char, d ≤ c ↔ d.toNat ≤ c.toNat := fun d => by rw [Char.le_def, UInt32.le_iff_toNat_le]; rfl
  have e' : ∀ d : Char, c ≤ d ↔ c.toNat ≤ d.toNat := fun d => by rw [Char.le_def, UInt32.le_iff_toNat_le]; rfl
  rw [Bool.eq_iff_iff]
  simp only [decide_eq_true_eq, Bool.and_eq_true, e, e']
  simp only [ch]

theorem char_eq (c d : Char) : decide (c.toNat = ch d) = decide (c = d) := by
  rw [Bool.eq_iff_iff]
  simp only [decide_eq_true_eq]
  exact ⟨fun h => toNat_inj h, fun h => by rw [h]; rfl⟩

theorem letter_eq (c : Char) : isIdentStart c.toNat = letter c := by
  have e : ∀ d : Char, d ≤ c ↔ d.toNat ≤ c.toNat := fun d => by rw [Char.le_def, UInt32.le_iff_toNat_le]; rfl
  have e' : ∀ d : Char, c ≤ d ↔ c.toNat ≤ d.toNat := fun d => by rw [Char.le_def, UInt32.le_iff_toNat_le]; rfl
  have h3 : c = '_' ↔ c.toNat = ch '_' := ⟨fun h => by rw [h]; rfl, fun h => toNat_inj h⟩
  rw [Bool.eq_iff_iff]
  simp only [letter, isIdentStart, decide_eq_true_eq, Bool.and_eq_true, Bool.or_eq_true, e, e', h3, or_assoc]
  simp only [ch]

theorem digit_lt : ∀ b, isDigit b = true → b < 128 := by
  intro b h
  simp only [isDigit, Bool.and_eq_true, decide_eq_true_eq] at h
  have : ch '9' = 57 := rfl
  omega

theorem letter_lt : ∀ b, isIdentStart b = true → b < 128 := fun b h => (isIdentContinue_lt (by simp [isIdentContinue, h])).1

theorem under_lt {f : Nat → Bool} (hf : ∀ b, f b = true → b < 128) : ∀ b, (decide (b = ch '_') || f b) = true → b < 128 := by
  intro b h
  simp only [Bool.or_eq_true, decide_eq_true_eq] at h
  rcases h with rfl | h
  · decide
  · exact hf b h

theorem agrees_digits : Agrees rawNumeric digitsLen := by
  have h1 := agrees_oneByte digit_lt digit_eq
  have h2 : Agrees (zeroOrMore (alt (byte (ch '_')) (oneByte isDigit))) (fun cs => some (cs.takeWhile (fun c => c = '_' || digit c)).length) := by
    rw [byte, alt_oneByte]
    exact agrees_zeroOrMore (under_lt digit_lt) (fun c => by rw [char_eq, digit_eq])
  have h := agrees_seq h1 h2
  refine ⟨h.1, fun cs => (h.2 cs).trans ?_⟩
  cases cs with
  | nil => rfl
  | cons c t =>
    simp only [digitsLen, List.head?_cons, Option.map_some, Option.getD_some]
    by_cases hd : digit c = true
    · simp [hd, List.takeWhile_cons]
      omega
    · simp [hd]

theorem agrees_suffix : Agrees intSuffix suffixLen := by
  have hl : ∀ w ∈ ["8", "16", "32", "64", "128", "size"], ∀ c ∈ w.toList, c.toNat < 128 := by decide +kernel
  have h1 : Agrees (oneOf (["8", "16", "32", "64", "128", "size"].map (fun w => lit (bytes w))))
      (fun cs => (["8", "16", "32", "64", "128", "size"].find? (fun w => w.toList.isPrefixOf cs)).map (·.length)) := by
    constructor
    · apply oneOf_over
      intro p hp
      obtain ⟨w, hw, rfl⟩ := List.mem_map.mp hp
      exact (agrees_lit (hl w hw)).1
    · intro cs
      have key : ∀ ws : List String, (∀ w ∈ ws, ∀ c ∈ w.toList, c.toNat < 128) →
          oneOf (ws.map (fun w => lit (bytes w))) (encode cs) = (ws.find? (fun w => w.toList.isPrefixOf cs)).map (·.length) := by
        intro ws
        induction ws with
        | nil => intro _; rfl
        | cons w ws ih =>
          intro h
          have := ih (fun w hw => h w (List.mem_cons_of_mem _ hw))
          simp only [oneOf, List.map_cons, List.findSome?_cons] at this ⊢
          rw [(agrees_lit (h w List.mem_cons_self)).2, List.find?_cons]
          by_cases hp : w.toList.isPrefixOf cs = true
          · simp only [hp, if_true, Option.map_some]
          · rw [Bool.not_eq_true] at hp
            simp only [hp, Bool.false_eq_true, if_false]
            exact this
      exact key _ hl
  have h := agrees_seq (agrees_alt (agrees_byte (d := 'u') (by decide)) (agrees_byte (d := 'i') (by decide))) h1
  refine ⟨h.1, fun cs => (h.2 cs).trans ?_⟩
  have hs : ∀ x : Char, ∀ w ∈ ["8", "16", "32", "64", "128", "size"], (String.singleton x ++ w).toList = x :: w.toList := by
    intro x w _
    simp
  have hsplit : ∀ (x : Char) (ws : List String) (t : List Char), ((ws.map (fun w => String.singleton x ++ w)).find? (fun w => w.toList.isPrefixOf (x :: t))).map (·.length) =
      ((ws.find? (fun w => w.toList.isPrefixOf t)).map (·.length)).map (fun m => 1 + m) := by
    intro x ws t
    induction ws with
    | nil => rfl
    | cons w ws ih =>
      simp only [List.map_cons, List.find?_cons]
      have e : (String.singleton x ++ w).toList.isPrefixOf (x :: t) = w.toList.isPrefixOf t := by simp [List.isPrefixOf]
      rw [e]
      cases w.toList.isPrefixOf t with
      | true => simp
      | false => exact ih
  have hnone : ∀ (x y : Char) (ws : List String) (t : List Char), x ≠ y → (ws.map (fun w => String.singleton x ++ w)).find? (fun w => w.toList.isPrefixOf (y :: t)) = none := by
    intro x y ws t hxy
    rw [List.find?_eq_none]
    intro w hw
    obtain ⟨v, _, rfl⟩ := List.mem_map.mp hw
    simp [List.isPrefixOf, hxy]
  have hall : (["u8", "u16", "u32", "u64", "u128", "usize", "i8", "i16", "i32", "i64", "i128", "isize"] : List String) =
      ["8", "16", "32", "64", "128", "size"].map (fun w => String.singleton 'u' ++ w) ++ ["8", "16", "32", "64", "128", "size"].map (fun w => String.singleton 'i' ++ w) := by
    decide +kernel
  rw [suffixLen, hall, List.find?_append]
  cases cs with
  | nil => simp
  | cons c t =>
    by_cases hu : c = 'u'
    · subst hu
      rw [hnone 'i' 'u' _ t (by decide), Option.or_none, hsplit]
      simp
    · rw [hnone 'u' c _ t (fun h => hu h.symm), Option.none_or]
      by_cases hi : c = 'i'
      · subst hi
        rw [hsplit]
        simp
      · rw [hnone 'i' c _ t (fun h => hi h.symm)]
        simp [hu, hi]

/-- Digits of a base, the suffix, and `x`, `o` or `b` in front. -/
theorem agrees_base {f : Nat → Bool} {d : Char → Bool} (hf : ∀ b, f b = true → b < 128) (hd : ∀ c : Char, f c.toNat = d c) (hu : d '_' = false) :
    Agrees (oneOrMoreWithSep (oneByte f) (byte (ch '_')))
      (fun cs => if (cs.takeWhile (fun c => d c || c = '_')).any d then some (cs.takeWhile (fun c => d c || c = '_')).length else none) := by
  have h1 : Agrees (zeroOrMore (byte (ch '_'))) (fun cs => some (cs.takeWhile (fun c => decide (c = '_'))).length) :=
    agrees_zeroOrMore (fun b h => by simp at h; subst h; decide) (fun c => char_eq c '_')
  have h2 := agrees_oneByte hf hd
  have h3 : Agrees (zeroOrMore (alt (oneByte f) (byte (ch '_')))) (fun cs => some (cs.takeWhile (fun c => d c || c = '_')).length) := by
    rw [byte, alt_oneByte]
    refine agrees_zeroOrMore ?_ (fun c => by rw [char_eq, hd])
    intro b h
    apply under_lt hf
    rw [Bool.or_comm]
    exact h
  have h := agrees_seq3 h1 h2 h3
  refine ⟨h.1, fun cs => (h.2 cs).trans ?_⟩
  induction cs with
  | nil => rfl
  | cons c t ih =>
    by_cases hc : c = '_'
    · subst hc
      simp only [List.takeWhile_cons, hu, Bool.false_or, decide_true, if_true, List.any_cons, Bool.or_true, List.length_cons, Option.bind_some, List.drop_succ_cons] at ih ⊢
      have sh : ∀ (o : Option Nat) (f : Nat → Option Nat), True := fun _ _ => trivial
      generalize (t.takeWhile (fun c => decide (c = '_'))).length = k at ih ⊢
      cases hk : ((t.drop k).head?.map d).getD false with
      | false =>
        simp only [hk, Bool.false_eq_true, if_false, Option.map_none, Option.bind_none] at ih ⊢
        split at ih
        · cases ih
        · rename_i hn
          rw [if_neg hn]
      | true =>
        simp only [hk, if_true, Option.map_some, Option.bind_some] at ih ⊢
        split at ih
        · rename_i hn
          rw [if_pos hn]
          have e : k + 1 + 1 = (k + 1) + 1 := rfl
          rw [e, List.drop_succ_cons]
          simp only [Option.some.injEq] at ih ⊢
          omega
        · cases ih
    · have hw : (c :: t).takeWhile (fun c => decide (c = '_')) = [] := by simp [List.takeWhile_cons, hc]
      simp only [hw, List.length_nil, Option.bind_some, List.drop_zero, List.head?_cons, Option.map_some, Option.getD_some]
      cases hdc : d c with
      | false => simp [List.takeWhile_cons, hdc, hc]
      | true =>
        simp [List.takeWhile_cons, hdc]
        omega

theorem dropWhile_eq {α : Type} (p : α → Bool) (t : List α) : t.dropWhile p = t.drop (t.takeWhile p).length := by
  induction t with
  | nil => rfl
  | cons c t ih =>
    simp only [List.dropWhile_cons, List.takeWhile_cons]
    split
    · simpa using ih
    · rfl

theorem agrees_nondecimal : Agrees positiveNondecimal nondecimalLen := by
  have hx := agrees_seq (agrees_byte (d := 'x') (by decide)) (agrees_base isHexDigit_lt (fun c => (hex_eq c).symm) (by decide))
  have ho := agrees_seq (agrees_byte (d := 'o') (by decide)) (agrees_base (f := fun x => ch '0' ≤ x && x ≤ ch '7')
    (fun b h => by simp only [Bool.and_eq_true, decide_eq_true_eq] at h; have : ch '7' = 55 := rfl; omega) octal_eq (by decide))
  have e : alt (byte (ch '0')) (byte (ch '1')) = oneByte (fun x => decide (x = ch '0') || decide (x = ch '1')) := by rw [byte, byte, alt_oneByte]
  have hb := agrees_seq (agrees_byte (d := 'b') (by decide)) (agrees_base (d := fun c => c = '0' || c = '1') (f := fun x => decide (x = ch '0') || decide (x = ch '1'))
      (fun b h => by simp only [Bool.or_eq_true, decide_eq_true_eq] at h; have : ch '0' = 48 := rfl; have : ch '1' = 49 := rfl; omega)
      (fun c => by rw [char_eq, char_eq]) (by decide))
  rw [← e] at hb
  have h := agrees_seq3 (agrees_byte (d := '0') (by decide)) (agrees_alt3 hx ho hb) (agrees_optional agrees_suffix)
  refine ⟨h.1, fun cs => (h.2 cs).trans ?_⟩
  have fin : ∀ (d : Char → Bool) (x : Char) (t : List Char),
      ((((if (t.takeWhile (fun c => d c || c = '_')).any d then some (t.takeWhile (fun c => d c || c = '_')).length else none).map (fun m => 1 + m)).map (fun m => 1 + m)).bind
        (fun n => (some ((suffixLen (('0' :: x :: t).drop n)).getD 0)).map (fun m => n + m))) = (baseLen d t).map (fun n => n + 2) := by
    intro d x t
    rw [baseLen, dropWhile_eq]
    split
    · simp only [Option.map_some, Option.bind_some]
      have e : 1 + (1 + (t.takeWhile (fun c => d c || c = '_')).length) = (t.takeWhile (fun c => d c || c = '_')).length + 1 + 1 := by omega
      rw [e, List.drop_succ_cons, List.drop_succ_cons]
      congr 1
      omega
    · rfl
  cases cs with
  | nil => rfl
  | cons z cs =>
    by_cases hz : z = '0'
    · subst hz
      cases cs with
      | nil => rfl
      | cons x t =>
        by_cases h1 : x = 'x'
        · subst h1
          simp only [nondecimalLen, ← fin hex 'x' t]
          simp
        · by_cases h2 : x = 'o'
          · subst h2
            simp only [nondecimalLen, ← fin _ 'o' t]
            simp
          · by_cases h3 : x = 'b'
            · subst h3
              simp only [nondecimalLen, ← fin _ 'b' t]
              simp
            · have hn : nondecimalLen ('0' :: x :: t) = none := by
                rw [nondecimalLen.eq_def]
                split <;> first | rfl | (rename_i heq; simp only [List.cons.injEq, true_and] at heq; first | exact absurd heq.1 h1 | exact absurd heq.1 h2 | exact absurd heq.1 h3)
              simp [hn, h1, h2, h3]
    · have hn : nondecimalLen (z :: cs) = none := by
        rw [nondecimalLen.eq_def]
        split <;> first | rfl | (rename_i heq; simp only [List.cons.injEq] at heq; exact absurd heq.1 hz)
      simp [hn, hz]

theorem agrees_decimal : Agrees positiveDecimal decimalLen := by
  have hfrac : Agrees (optional (seq3 (byte (ch '.')) (failIf (oneByte isIdentStart)) (optional rawNumeric))) (fun cs => some (fractionLen cs)) := by
    have h := agrees_optional (agrees_seq3 (agrees_byte (d := '.') (by decide)) (agrees_failIf (agrees_oneByte letter_lt letter_eq)) (agrees_optional agrees_digits))
    refine ⟨h.1, fun cs => (h.2 cs).trans ?_⟩
    cases cs with
    | nil => rfl
    | cons c t =>
      by_cases hc : c = '.'
      · subst hc
        simp only [fractionLen, List.head?_cons, if_true, Option.bind_some, List.drop_succ_cons, List.drop_zero]
        by_cases hl : (t.head?.map letter).getD false = true
        · simp only [hl, if_true, Option.isSome_some, Option.map_none, Option.bind_none, Option.getD_none]
        · simp only [hl, Bool.false_eq_true, if_false, Option.isSome_none, Option.map_some, Option.bind_some, Option.getD_some, Nat.add_zero, List.drop_succ_cons, List.drop_zero]
      · have : fractionLen (c :: t) = 0 := by
          rw [fractionLen.eq_def]
          split
          · rename_i heq; simp only [List.cons.injEq] at heq; exact absurd heq.1 hc
          · rfl
        simp [this, hc]
  have hexp : Agrees (optional (seq3 (alt (byte (ch 'e')) (byte (ch 'E'))) (optional (alt (byte (ch '+')) (byte (ch '-')))) rawNumeric)) (fun cs => some (exponentLen cs)) := by
    have h := agrees_optional (agrees_seq3 (agrees_alt (agrees_byte (d := 'e') (by decide)) (agrees_byte (d := 'E') (by decide)))
      (agrees_optional (agrees_alt (agrees_byte (d := '+') (by decide)) (agrees_byte (d := '-') (by decide)))) agrees_digits)
    refine ⟨h.1, fun cs => (h.2 cs).trans ?_⟩
    cases cs with
    | nil => rfl
    | cons c t =>
      simp only [exponentLen, List.head?_cons, Option.some.injEq]
      have key : ∀ o : Option Nat, o = some 1 →
          ((o.bind (fun n => (some (((if ((c :: t).drop n).head? = some '+' then some 1 else none).or (if ((c :: t).drop n).head? = some '-' then some 1 else none)).getD 0)).map (fun m => n + m))).bind
            (fun n => (digitsLen ((c :: t).drop n)).map (fun m => n + m))).getD 0 =
          if t.head? = some '+' ∨ t.head? = some '-' then ((digitsLen t.tail).map (fun n => n + 2)).getD 0 else ((digitsLen t).map (fun n => n + 1)).getD 0 := by
        rintro _ rfl
        simp only [Option.bind_some, Option.map_some, List.drop_succ_cons, List.drop_zero]
        by_cases hp : t.head? = some '+'
        · simp only [hp, if_true, Option.some_or, Option.getD_some, true_or]
          cases t with
          | nil => cases hp
          | cons x t => simp only [List.drop_succ_cons, List.drop_zero, List.tail_cons]; cases digitsLen t <;> simp; omega
        · by_cases hm : t.head? = some '-'
          · rw [if_neg hp, if_pos hm, if_pos (Or.inr hm)]
            cases t with
            | nil => cases hm
            | cons x t => simp only [Option.none_or, Option.getD_some, List.drop_succ_cons, List.drop_zero, List.tail_cons]; cases digitsLen t <;> simp; omega
          · rw [if_neg hp, if_neg hm, if_neg (by simp [hp, hm])]
            simp only [Option.none_or, Option.getD_none, Nat.add_zero, List.drop_succ_cons, List.drop_zero]
            cases digitsLen t <;> simp; omega
      by_cases he : c = 'e'
      · rw [if_pos (Or.inl he), ← key (some 1) rfl]
        simp [he]
      · by_cases hE : c = 'E'
        · rw [if_pos (Or.inr hE), ← key (some 1) rfl]
          simp [hE]
        · simp [he, hE]
  have hsuf : Agrees (optional (alt (lit (bytes "f32")) (lit (bytes "f64")))) (fun cs => some (floatSuffixLen cs)) := by
    have h := agrees_optional (agrees_alt (agrees_lit (w := "f32") (by decide)) (agrees_lit (w := "f64") (by decide)))
    refine ⟨h.1, fun cs => (h.2 cs).trans ?_⟩
    have e1 : "f32".toList = ['f', '3', '2'] := by decide
    have e2 : "f64".toList = ['f', '6', '4'] := by decide
    have e3 : "f32".length = 3 := by decide
    have e4 : "f64".length = 3 := by decide
    simp only [e1, e2, e3, e4, floatSuffixLen]
    cases ['f', '3', '2'].isPrefixOf cs <;> cases ['f', '6', '4'].isPrefixOf cs <;> rfl
  have h := agrees_seq agrees_digits (agrees_alt agrees_suffix (agrees_seq3 hfrac hexp hsuf))
  refine ⟨h.1, fun cs => (h.2 cs).trans ?_⟩
  simp only [decimalLen]
  cases hd : digitsLen cs with
  | none => rfl
  | some n =>
    simp only [Option.bind_some, Option.map_some]
    cases hs : suffixLen (cs.drop n) with
    | some k => rfl
    | none =>
      simp only [Option.none_or, Option.map_some, List.drop_drop]
      congr 1
      simp only [Nat.add_assoc]

/-- The parser of numbers finds exactly the numbers. -/
theorem agrees_number : Agrees numericLiteral numberLen := by
  have h := agrees_seq (agrees_optional (agrees_byte (d := '-') (by decide))) (agrees_alt agrees_nondecimal agrees_decimal)
  refine ⟨h.1, fun cs => (h.2 cs).trans ?_⟩
  cases cs with
  | nil => rfl
  | cons c t =>
    by_cases hc : c = '-'
    · subst hc
      simp only [numberLen, positiveLen]
      simp [Nat.add_comm]
    · have : numberLen (c :: t) = positiveLen (c :: t) := by
        rw [numberLen.eq_def]
        split
        · rename_i heq; simp only [List.cons.injEq] at heq; exact absurd heq.1 hc
        · rfl
      rw [this, positiveLen]
      simp [hc]

end Lang

end Xi
