import Verif.Lang.RustLemmas
/-!
# What a turn of the parser does
-/

namespace Xi

namespace Lang

/-- A parser that matches only what begins with a byte of a kind. -/
def Starts (P : Nat → Prop) (p : Peg) : Prop := ∀ s n, p s = some n → ∃ b s', s = b :: s' ∧ P b

theorem oneByte_starts {P : Nat → Prop} {f : Nat → Bool} (hf : ∀ b, f b = true → P b) : Starts P (oneByte f) := by
  intro s n h
  cases s with
  | nil => simp [oneByte] at h
  | cons b s =>
    simp only [oneByte] at h
    split at h
    · exact ⟨b, s, rfl, hf b (by assumption)⟩
    · cases h

theorem byte_starts {P : Nat → Prop} {b : Nat} (hb : P b) : Starts P (byte b) := by
  apply oneByte_starts
  intro x hx
  simp at hx
  subst hx
  exact hb

theorem seq_starts {P : Nat → Prop} {p q : Peg} (hp : Starts P p) : Starts P (seq p q) := by
  intro s n h
  obtain ⟨a, b, ha, hb, rfl⟩ := seq_some h
  exact hp _ _ ha

theorem seq3_starts {P : Nat → Prop} {p q r : Peg} (hp : Starts P p) : Starts P (seq3 p q r) := by
  rw [seq3_eq]; exact seq_starts (seq_starts hp)

theorem alt_starts {P : Nat → Prop} {p q : Peg} (hp : Starts P p) (hq : Starts P q) : Starts P (alt p q) := by
  intro s n h; exact (alt_some h).elim (hp _ _) (hq _ _)

/-- Bytes of numbers. -/
def NumByte (b : Nat) : Prop := isIdentContinue b = true ∨ b = ch '.' ∨ b = ch '+' ∨ b = ch '-'

instance : DecidablePred NumByte := fun b => inferInstanceAs (Decidable (_ ∨ _))

theorem isIdentContinue_lt {b : Nat} (h : isIdentContinue b = true) : b < 128 ∧ b ≠ ch '/' ∧ b ≠ ch '"' ∧ b ≠ ch '\'' := by
  simp only [isIdentContinue, isIdentStart, isDigit, Bool.or_eq_true, Bool.and_eq_true, decide_eq_true_eq] at h
  have h1 : ch '9' = 57 := rfl
  have h2 : ch 'Z' = 90 := rfl
  have h3 : ch 'z' = 122 := rfl
  have h4 : ch '_' = 95 := rfl
  have h5 : ch '0' = 48 := rfl
  have h6 : ch 'A' = 65 := rfl
  have h7 : ch 'a' = 97 := rfl
  have h8 : ch '/' = 47 := rfl
  have h9 : ch '"' = 34 := rfl
  have h10 : ch '\'' = 39 := rfl
  omega

theorem numByte_lt {b : Nat} (h : NumByte b) : b < 128 ∧ b ≠ ch '/' ∧ b ≠ ch '"' ∧ b ≠ ch '\'' := by
  rcases h with h | rfl | rfl | rfl
  · exact isIdentContinue_lt h
  all_goals decide

theorem isDigit_num {b : Nat} (h : isDigit b = true) : NumByte b := by simp [NumByte, isIdentContinue, h]

theorem isHexDigit_num {b : Nat} (h : isHexDigit b = true) : NumByte b := by
  left
  simp only [isHexDigit, Bool.or_eq_true, Bool.and_eq_true, decide_eq_true_eq] at h
  simp only [isIdentContinue, isIdentStart, isDigit, Bool.or_eq_true, Bool.and_eq_true, decide_eq_true_eq]
  have h2 : ch 'Z' = 90 := rfl
  have h3 : ch 'z' = 122 := rfl
  have h6 : ch 'F' = 70 := rfl
  have h7 : ch 'f' = 102 := rfl
  omega

theorem rawNumeric_over : Over NumByte rawNumeric :=
  seq_over (oneByte_over (fun _ => isDigit_num)) (zeroOrMore_over (alt_over (byte_over (by decide)) (oneByte_over (fun _ => isDigit_num))))

theorem intSuffix_over : Over NumByte intSuffix := by
  refine seq_over (alt_over (byte_over (by decide)) (byte_over (by decide))) (oneOf_over ?_)
  intro p hp
  simp only [List.mem_map] at hp
  obtain ⟨w, hw, rfl⟩ := hp
  apply lit_over
  have : ∀ w ∈ ["8", "16", "32", "64", "128", "size"], ∀ b ∈ bytes w, NumByte b := by decide +kernel
  exact this w hw

theorem oneOrMoreWithSep_over {P : Nat → Prop} {p q : Peg} (hp : Over P p) (hq : Over P q) : Over P (oneOrMoreWithSep p q) :=
  seq3_over (zeroOrMore_over hq) hp (zeroOrMore_over (alt_over hp hq))

theorem positiveNondecimal_over : Over NumByte positiveNondecimal := by
  refine seq3_over (byte_over (by decide)) (alt3_over (seq_over (byte_over (by decide)) (oneOrMoreWithSep_over (oneByte_over (fun _ => isHexDigit_num)) (byte_over (by decide))))
    (seq_over (byte_over (by decide)) (oneOrMoreWithSep_over (oneByte_over ?_) (byte_over (by decide))))
    (seq_over (byte_over (by decide)) (oneOrMoreWithSep_over (alt_over (byte_over (by decide)) (byte_over (by decide))) (byte_over (by decide)))))
    (optional_over intSuffix_over)
  intro b hb
  apply isDigit_num
  simp only [Bool.and_eq_true, decide_eq_true_eq] at hb
  simp only [isDigit, Bool.and_eq_true, decide_eq_true_eq]
  have h1 : ch '9' = 57 := rfl
  have h2 : ch '7' = 55 := rfl
  omega

theorem positiveDecimal_over : Over NumByte positiveDecimal := by
  refine seq_over rawNumeric_over (alt_over intSuffix_over (seq3_over (optional_over (seq3_over (byte_over (by decide)) (failIf_over _ _) (optional_over rawNumeric_over)))
    (optional_over (seq3_over (alt_over (byte_over (by decide)) (byte_over (by decide))) (optional_over (alt_over (byte_over (by decide)) (byte_over (by decide)))) rawNumeric_over))
    (optional_over (alt_over (lit_over ?_) (lit_over ?_)))))
  · decide +kernel
  · decide +kernel

theorem numericLiteral_over : Over NumByte numericLiteral :=
  seq_over (optional_over (byte_over (by decide))) (alt_over positiveNondecimal_over positiveDecimal_over)

theorem positive_starts : Starts (fun b => isDigit b = true) (alt positiveNondecimal positiveDecimal) :=
  alt_starts (seq3_starts (byte_starts (by decide))) (seq_starts (seq_starts (oneByte_starts (fun _ h => h))))

theorem positive_eats : Eats (alt positiveNondecimal positiveDecimal) :=
  alt_eats (seq3_eats oneByte_eats) (seq_eats_left (seq_eats_left oneByte_eats))

theorem ident_over : Over (fun b => isIdentContinue b = true) ident := by
  refine seq_over (oneByte_over ?_) (zeroOrMore_over (oneByte_over (fun _ h => h)))
  intro b hb
  simp [isIdentContinue, hb]

/-- White space. -/
def IsSpace (b : Nat) : Prop := b ∈ [ch ' ', ch '\t', ch '\n', ch '\r', 0x0b, 0x0c]

instance : DecidablePred IsSpace := fun b => inferInstanceAs (Decidable (_ ∈ _))

theorem whitespace_over : Over IsSpace whitespace := by
  apply oneOrMore_over
  apply oneOf_over
  intro p hp
  simp only [List.mem_map] at hp
  obtain ⟨b, hb, rfl⟩ := hp
  exact byte_over hb

theorem whitespace_eats : Eats whitespace := by
  apply oneOrMore_eats
  apply oneOf_eats
  intro p hp
  simp only [List.mem_map] at hp
  obtain ⟨b, hb, rfl⟩ := hp
  exact oneByte_eats

theorem isSpace_lt {b : Nat} (h : IsSpace b) : b < 128 ∧ b ≠ ch '/' ∧ b ≠ ch '"' ∧ b ≠ ch '\'' := by
  have : ∀ b ∈ [ch ' ', ch '\t', ch '\n', ch '\r', 0x0b, 0x0c], b < 128 ∧ b ≠ ch '/' ∧ b ≠ ch '"' ∧ b ≠ ch '\'' := by decide
  exact this b h

/-! ## Reading on -/

/-- A character that is of no account in code. -/
def Dull (c : Char) : Prop := c ≠ '/' ∧ c ≠ '"' ∧ c ≠ '\''

theorem charLen_none {c : Char} (h : c ≠ '\'') (t : List Char) : charLen (c :: t) = none := by
  rw [charLen.eq_def]
  split
  · rename_i heq; simp only [List.cons.injEq] at heq; exact absurd heq.1 h
  · rename_i heq; simp only [List.cons.injEq] at heq; exact absurd heq.1 h
  · rfl

theorem readMode_other {c : Char} {t : List Char} (h1 : ¬ (c = '/' ∧ t.head? = some '*')) (h2 : ¬ (c = '/' ∧ t.head? = some '/')) (h3 : c ≠ '"') (h4 : charLen (c :: t) = none) :
    readMode .code 0 (c :: t) = readMode .code 0 t := by
  simp only [readMode, h1, h2, h3, h4, if_false]

theorem readMode_dull {a rest : List Char} (h : ∀ c ∈ a, Dull c) : readMode .code 0 (a ++ rest) = readMode .code 0 rest := by
  induction a with
  | nil => rfl
  | cons c a ih =>
    obtain ⟨h1, h2, h3⟩ := h c List.mem_cons_self
    rw [List.cons_append, readMode_other (by simp [h1]) (by simp [h1]) h2 (charLen_none h3 _)]
    exact ih (fun c hc => h c (List.mem_cons_of_mem _ hc))

theorem readMode_skip (m : Mode) (a rest : List Char) : readMode m a.length (a ++ rest) = readMode m 0 rest := by
  induction a with
  | nil => rfl
  | cons c a ih =>
    cases m <;> simp only [List.cons_append, List.length_cons, readMode] <;> exact ih

/-! ## Words -/

theorem cmpBytes_eq {a b : Bytes} (h : cmpBytes a b = .eq) : a = b := by
  induction a generalizing b with
  | nil => cases b <;> simp [cmpBytes] at h ⊢
  | cons x a ih =>
    cases b with
    | nil => simp [cmpBytes] at h
    | cons y b =>
      simp only [cmpBytes] at h
      split at h
      · cases h
      · split at h
        · cases h
        · rw [ih h, show x = y by omega]

theorem bisect_sound {ws : List Bytes} {w : Bytes} (fuel lo size : Nat) (hl : lo + size ≤ ws.length) (h : bisect ws w fuel lo size = true) : w ∈ ws := by
  induction fuel generalizing lo size with
  | zero => simp [bisect] at h
  | succ fuel ih =>
    cases size with
    | zero => simp [bisect] at h
    | succ size =>
      simp only [bisect] at h
      have hlt : lo + (size + 1) / 2 < ws.length := by omega
      split at h
      · rename_i he
        rw [← cmpBytes_eq he, List.getD_eq_getElem?_getD, List.getElem?_eq_getElem hlt]
        simp
      · exact ih _ _ (by omega) h
      · exact ih _ _ (by omega) h

theorem map_toNat_inj {a b : List Char} (h : a.map Char.toNat = b.map Char.toNat) : a = b := by
  induction a generalizing b with
  | nil => cases b with
    | nil => rfl
    | cons => cases h
  | cons x a ih =>
    cases b with
    | nil => cases h
    | cons y b =>
      simp only [List.map_cons, List.cons.injEq] at h
      rw [toNat_inj h.1, ih h.2]

theorem bytes_inj {a : List Char} {k : String} (h : a.map Char.toNat = bytes k) : String.ofList a = k := by
  have : a = k.toList := map_toNat_inj h
  rw [this, String.ofList_toList]

theorem found_sound {ks : List String} {a : List Char} (h : found ks (a.map Char.toNat) = true) : String.ofList a ∈ ks := by
  have := bisect_sound _ _ _ (by simp) h
  simp only [List.mem_map] at this
  obtain ⟨k, hk, e⟩ := this
  rw [bytes_inj e.symm]
  exact hk

theorem found_keyword {k : String} (h : k ∈ rustKeywords) : found rustKeywords (bytes k) = true := by
  have : ∀ k ∈ rustKeywords, found rustKeywords (bytes k) = true := by decide +kernel
  exact this k h

theorem found_primType {k : String} (h : k ∈ rustPrimTypes) : found rustPrimTypes (bytes k) = true := by
  have : ∀ k ∈ rustPrimTypes, found rustPrimTypes (bytes k) = true := by decide +kernel
  exact this k h

theorem keywords_mem {k : String} : k ∈ rustKeywords ↔ k ∈ keywords := by
  have h1 : ∀ k ∈ rustKeywords, k ∈ keywords := by decide +kernel
  have h2 : ∀ k ∈ keywords, k ∈ rustKeywords := by decide +kernel
  exact ⟨h1 k, h2 k⟩

theorem primTypes_mem {k : String} : k ∈ rustPrimTypes ↔ k ∈ primTypes := by
  have h1 : ∀ k ∈ rustPrimTypes, k ∈ primTypes := by decide +kernel
  have h2 : ∀ k ∈ primTypes, k ∈ rustPrimTypes := by decide +kernel
  exact ⟨h1 k, h2 k⟩

theorem operators_mem {k : String} : k ∈ rustOperators ↔ k ∈ operators := by
  have h1 : ∀ k ∈ rustOperators, k ∈ operators := by decide +kernel
  have h2 : ∀ k ∈ operators, k ∈ rustOperators := by decide +kernel
  exact ⟨h1 k, h2 k⟩

theorem wordChar_eq (c : Char) : wordChar c = isIdentContinue c.toNat := by
  have e : ∀ d : Char, d ≤ c ↔ d.toNat ≤ c.toNat := fun d => by rw [Char.le_def, UInt32.le_iff_toNat_le]; rfl
  have e' : ∀ d : Char, c ≤ d ↔ c.toNat ≤ d.toNat := fun d => by rw [Char.le_def, UInt32.le_iff_toNat_le]; rfl
  have e'' : c = '_' ↔ c.toNat = '_'.toNat := ⟨fun h => by rw [h], toNat_inj⟩
  rw [Bool.eq_iff_iff]
  simp only [wordChar, Char.isAlphanum, Char.isAlpha, Char.isUpper, Char.isLower, Char.isDigit, isIdentContinue, isIdentStart, isDigit,
    Bool.or_eq_true, Bool.and_eq_true, decide_eq_true_eq, e'']
  simp only [ge_iff_le, UInt32.le_iff_toNat_le, ch, Char.toNat]
  exact or_right_comm

/-! ## A turn -/

/-- What a turn finds at the beginning of a text. -/
inductive TurnIs (total : Nat) : List Char → Turn → Prop
  | comment (rest : List Char) : TurnIs total ('/' :: '*' :: rest) (.enter .comment 2)
  | line (rest : List Char) : TurnIs total ('/' :: '/' :: rest) (.token .comment total)
  | quote (rest : List Char) : TurnIs total ('"' :: rest) (.enter .strQuote 1)
  | token {el : StateEl} {b rest : List Char} (hb : b ≠ []) (hel : el ≠ .comment ∧ el ≠ .strQuote) (hi : Is el b rest)
      (hr : readMode .code 0 (b ++ rest) = readMode .code 0 rest) : TurnIs total (b ++ rest) (.token el (encode b).length)
  | skip {b rest : List Char} (hb : b ≠ []) (hr : readMode .code 0 (b ++ rest) = readMode .code 0 rest) : TurnIs total (b ++ rest) (.skip (encode b).length)
  | wide {c : Char} (hc : 128 ≤ c.toNat) (rest : List Char) : TurnIs total (c :: rest) (.skip 1)

theorem ne_nil_of_encode {b : List Char} {n : Nat} (h : (encode b).length = n) (hn : 0 < n) : b ≠ [] := by
  rintro rfl
  simp [encode] at h
  omega

theorem dull_of {c : Char} (h : c.toNat < 128 ∧ c.toNat ≠ ch '/' ∧ c.toNat ≠ ch '"' ∧ c.toNat ≠ ch '\'') : Dull c := by
  obtain ⟨_, h1, h2, h3⟩ := h
  refine ⟨?_, ?_, ?_⟩ <;> rintro rfl
  · exact h1 rfl
  · exact h2 rfl
  · exact h3 rfl

theorem ident_wide {c : Char} (h : 128 ≤ c.toNat) (t : List Char) : ident (encode (c :: t)) = none := by
  rcases encode_head c t with ⟨h', _⟩ | ⟨_, b, s, e, _, hb, _⟩
  · omega
  · rw [e, ident, seq, oneByte]
    have : isIdentStart b = false := by
      cases hi : isIdentStart b with
      | false => rfl
      | true =>
        have := (isIdentContinue_lt (b := b) (by simp [isIdentContinue, hi])).1
        omega
    simp [this]

/-- A word ends where no word goes on. -/
theorem ident_ends {cs a rest : List Char} (h : ident (encode cs) = some (encode a).length) (hcs : cs = a ++ rest) (ha : ∀ c ∈ a, c.toNat < 128) : ∀ c ∈ rest.head?, ¬ wordChar c := by
  obtain ⟨n, m, h1, h2, h3⟩ := seq_some h
  have hn : n = 1 := by
    cases he : encode cs with
    | nil => rw [he] at h1; simp [oneByte] at h1
    | cons b s => rw [he] at h1; simp only [oneByte] at h1; split at h1 <;> cases h1; rfl
  subst hn
  simp only [zeroOrMore, Option.some.injEq] at h2
  have hdone := repeatGo_done (p := oneByte isIdentContinue) (oneByte_good (fun b hb => (isIdentContinue_lt hb).1)) oneByte_eats
    (((encode cs).drop 1).length + 1) ((encode cs).drop 1) (by omega)
  rw [h2, List.drop_drop, ← h3, hcs, encode_append, List.drop_left] at hdone
  intro c hc
  cases rest with
  | nil => cases hc
  | cons x rest =>
    cases hc
    rw [oneByte_encode (fun b hb => (isIdentContinue_lt hb).1)] at hdone
    rw [wordChar_eq]
    intro hx
    rw [hx] at hdone
    simp at hdone

theorem turn_spec (total : Nat) (c : Char) (t : List Char) : TurnIs total (c :: t) (turn total (encode (c :: t))) := by
  have hlit1 : lit (bytes "/*") (encode (c :: t)) = _ := lit_encode (d := '/') (e := '*') (by decide) (by decide) c t
  have hlit2 : lit (bytes "//") (encode (c :: t)) = _ := lit_encode (d := '/') (e := '/') (by decide) (by decide) c t
  rw [turn, hlit1, hlit2]
  by_cases h1 : c = '/' ∧ t.head? = some '*'
  · obtain ⟨rfl, h⟩ := h1
    cases t with
    | nil => cases h
    | cons x t => cases h; simp only [List.head?_cons, and_self, if_true]; exact .comment t
  · by_cases h2 : c = '/' ∧ t.head? = some '/'
    · obtain ⟨rfl, h⟩ := h2
      cases t with
      | nil => cases h
      | cons x t => cases h; simp only [h1, List.head?_cons, and_self, if_true, if_false, Option.isSome_some]; exact .line t
    · simp only [h1, h2, if_false, Option.isSome_none, Bool.false_eq_true]
      cases hnum : numericLiteral (encode (c :: t)) with
      | some n =>
        obtain ⟨a, rest, e, hlen, hel, htk, hdr, hP⟩ := over_chars (fun b hb => (numByte_lt hb).1) numericLiteral_over hnum
        simp only
        obtain ⟨x, y, hx, hy, hxy⟩ := seq_some hnum
        have hpos := positive_eats _ _ hy
        have hne : a ≠ [] := ne_nil_of_encode hel (by omega)
        rw [e, ← hel]
        refine .token hne (by decide) ⟨?_, ?_⟩ (readMode_dull (fun c hc => dull_of (numByte_lt (hP c hc))))
        · -- it begins with a digit, after a minus perhaps
          obtain ⟨b, s', hs, hb⟩ := positive_starts _ _ hy
          have hdig : ∀ d : Char, isDigit d.toNat = true → d.isDigit = true := by
            intro d hd
            simp only [isDigit, Bool.and_eq_true, decide_eq_true_eq] at hd
            simp only [Char.isDigit, Bool.and_eq_true, decide_eq_true_eq, ge_iff_le, UInt32.le_iff_toNat_le]
            exact hd
          have hx' : x = 0 ∨ (x = 1 ∧ c = '-') := by
            simp only [optional] at hx
            rw [byte_char (by decide)] at hx
            split at hx
            · simp at hx; exact Or.inr ⟨hx.symm, by assumption⟩
            · simp at hx; exact Or.inl hx.symm
          rcases hx' with rfl | ⟨rfl, rfl⟩
          · cases a with
            | nil => exact absurd rfl hne
            | cons d a =>
              rw [List.drop_zero, e, List.cons_append] at hs
              rcases encode_head d (a ++ rest) with ⟨_, e'⟩ | ⟨hd, _⟩
              · rw [e'] at hs
                cases hs
                exact ⟨d, a, hdig d hb, Or.inl rfl⟩
              · have := (numByte_lt (hP d List.mem_cons_self)).1
                omega
          · cases a with
            | nil => exact absurd rfl hne
            | cons d a =>
              rw [List.cons_append] at e
              cases e
              rw [encode_drop_ascii (by decide)] at hs
              cases a with
              | nil =>
                simp at hlen
                omega
              | cons d a =>
                rw [List.cons_append] at hs
                rcases encode_head d (a ++ rest) with ⟨_, e'⟩ | ⟨hd, _⟩
                · rw [e'] at hs
                  cases hs
                  exact ⟨d, a, hdig d hb, Or.inr rfl⟩
                · have := (numByte_lt (hP d (by simp))).1
                  omega
        · intro c hc
          rcases hP c hc with h | h | h | h
          · left; rw [wordChar_eq]; exact h
          · right; rw [toNat_inj (c := c) (d := '.') h]; decide
          · right; rw [toNat_inj (c := c) (d := '+') h]; decide
          · right; rw [toNat_inj (c := c) (d := '-') h]; decide
      | none =>
        simp only
        have hget : (encode (c :: t)).getD 0 0 = ch '"' ↔ c = '"' := by
          rcases encode_head c t with ⟨_, e⟩ | ⟨hc, b, s, e, _, hb, _⟩
          · rw [e]
            exact ⟨fun h => toNat_inj h, fun h => by rw [h]; rfl⟩
          · rw [e]
            have h34 : ch '"' = 34 := rfl
            constructor
            · intro h; simp at h; omega
            · rintro rfl; exact absurd hc (by decide)
        by_cases h3 : c = '"'
        · subst h3
          rw [if_pos (hget.mpr rfl)]
          exact .quote t
        · rw [if_neg (fun h => h3 (hget.mp h)), charLiteral_encode]
          cases hcl : charLen (c :: t) with
          | some n =>
            simp only [Option.map_some]
            have hn : 3 ≤ n ∧ n ≤ (c :: t).length := by
              rw [charLen.eq_def] at hcl
              split at hcl
              · rename_i t' heq
                simp only [Option.bind_eq_some_iff] at hcl
                obtain ⟨k, hk, hcl⟩ := hcl
                split at hcl
                · cases hcl
                  rename_i hh
                  have : k < t'.length := by
                    apply Nat.lt_of_not_le
                    intro hle
                    rw [List.drop_eq_nil_of_le hle] at hh
                    cases hh
                  rw [heq]
                  simp only [List.length_cons]
                  omega
                · cases hcl
              · rename_i heq
                split at hcl
                · cases hcl
                · cases hcl
                  rw [heq]
                  simp
              · cases hcl
            have e : c :: t = (c :: t).take n ++ (c :: t).drop n := (List.take_append_drop n _).symm
            have hlen : ((c :: t).take n).length = n := by rw [List.length_take]; omega
            have hread : readMode .code 0 (c :: t) = readMode .code 0 ((c :: t).drop n) := by
              have : readMode .code 0 (c :: t) = readMode .code (n - 1) t := by
                simp only [readMode, h1, h2, h3, hcl, if_false]
              rw [this]
              obtain ⟨k, rfl⟩ : ∃ k, n = k + 1 := ⟨n - 1, by omega⟩
              rw [List.drop_succ_cons, Nat.add_sub_cancel]
              have := readMode_skip .code (t.take k) (t.drop k)
              rw [List.take_append_drop, List.length_take, Nat.min_eq_left (by simp at hn; omega)] at this
              exact this
            have := TurnIs.token (total := total) (el := .charQuote) (b := (c :: t).take n) (rest := (c :: t).drop n)
              (by intro h; rw [h] at hlen; simp at hlen; omega) (by decide) (by show charLen _ = _; rw [← e, hcl, hlen]) (by rw [← e]; exact hread)
            rwa [← e] at this
          | none =>
            simp only [Option.map_none]
            cases hop : oneOf (rustOperators.map (fun w => lit (bytes w))) (encode (c :: t)) with
            | some n =>
              simp only
              obtain ⟨p, hp, hn⟩ := oneOf_some hop
              simp only [List.mem_map] at hp
              obtain ⟨w, hw, rfl⟩ := hp
              have hwb : ∀ w ∈ rustOperators, (∀ b ∈ bytes w, b < 128) ∧ 0 < (bytes w).length ∧ ∀ b ∈ (bytes w).tail, b ≠ ch '/' ∧ b ≠ ch '"' ∧ b ≠ ch '\'' := by decide +kernel
              obtain ⟨k1, k2, k3⟩ := hwb w hw
              simp only [lit] at hn
              split at hn
              · rename_i hc
                cases hn
                obtain ⟨a, rest, e, hm, he, hr⟩ := split_ascii (List.take_append_drop (bytes w).length (encode (c :: t))).symm (by rw [hc.2]; exact k1)
                have hm' : a.map Char.toNat = bytes w := by rw [hm, hc.2]
                have hlen : (encode a).length = (bytes w).length := by rw [he, hc.2]
                have hne : a ≠ [] := ne_nil_of_encode hlen k2
                rw [e, ← hlen]
                refine .token hne (by decide) ?_ ?_
                · show String.ofList a ∈ operators
                  rw [bytes_inj hm']
                  exact operators_mem.mp hw
                · cases a with
                  | nil => exact absurd rfl hne
                  | cons x a =>
                    rw [List.cons_append] at e
                    cases e
                    rw [List.cons_append, readMode_other h1 h2 h3 hcl]
                    apply readMode_dull
                    intro d hd
                    have := k3 d.toNat (by rw [← hm']; exact List.mem_map_of_mem (f := Char.toNat) hd)
                    refine ⟨?_, ?_, ?_⟩ <;> rintro rfl
                    · exact this.1 rfl
                    · exact this.2.1 rfl
                    · exact this.2.2 rfl
              · cases hn
            | none =>
              simp only
              cases hid : ident (encode (c :: t)) with
              | some n =>
                simp only
                obtain ⟨a, rest, e, hlen, hel, htk, hdr, hP⟩ := over_chars (fun b hb => (isIdentContinue_lt hb).1) ident_over hid
                have hpos : 0 < n := seq_eats_left oneByte_eats _ _ hid
                have hne : a ≠ [] := ne_nil_of_encode hel hpos
                have hread := readMode_dull (rest := rest) (fun c hc => dull_of (isIdentContinue_lt (hP c hc)))
                have hend := ident_ends (by rw [hel]; exact hid) e (fun c hc => (isIdentContinue_lt (hP c hc)).1)
                rw [htk, e, ← hel]
                split
                · rename_i hf
                  exact .token hne (by decide) ⟨keywords_mem.mp (found_sound hf), hend⟩ hread
                · split
                  · rename_i hf
                    exact .token hne (by decide) ⟨primTypes_mem.mp (found_sound hf), hend⟩ hread
                  · exact .skip hne hread
              | none =>
                simp only
                cases hws : whitespace (encode (c :: t)) with
                | some n =>
                  simp only
                  obtain ⟨a, rest, e, hlen, hel, htk, hdr, hP⟩ := over_chars (fun b hb => (isSpace_lt hb).1) whitespace_over hws
                  have hpos : 0 < n := whitespace_eats _ _ hws
                  rw [e, ← hel]
                  refine .token (ne_nil_of_encode hel hpos) (by decide) ?_ (readMode_dull (fun c hc => dull_of (isSpace_lt (hP c hc))))
                  intro c hc
                  have := hP c hc
                  simp only [IsSpace, List.mem_cons, List.not_mem_nil, or_false] at this
                  rcases this with h | h | h | h | h | h
                  · rw [toNat_inj (c := c) (d := ' ') h]; decide
                  · rw [toNat_inj (c := c) (d := '\t') h]; decide
                  · rw [toNat_inj (c := c) (d := '\n') h]; decide
                  · rw [toNat_inj (c := c) (d := '\r') h]; decide
                  · rw [toNat_inj (c := c) (d := '\x0b') h]; decide
                  · rw [toNat_inj (c := c) (d := '\x0c') h]; decide
                | none =>
                  simp only
                  by_cases hc : c.toNat < 128
                  · have := TurnIs.skip (total := total) (b := [c]) (rest := t) (by simp) (readMode_other h1 h2 h3 hcl)
                    have hl : (encode [c]).length = 1 := encode_ascii (a := [c]) (by simpa using hc)
                    rwa [hl] at this
                  · exact .wide (by omega) t

end Lang

end Xi
