import Verif.Lang.PegLemmas
import Verif.Lang.Rust
import Verif.Spec.Lang
/-!
# Lemmas on the parser for Rust
-/

namespace Xi

namespace Lang

/-- A parser that matches only bytes of a kind. -/
def Over (P : Nat → Prop) (p : Peg) : Prop := ∀ s n, p s = some n → n ≤ s.length ∧ ∀ b ∈ s.take n, P b

theorem take_add_mem {s : Bytes} {a b x : Nat} (h : x ∈ s.take (a + b)) : x ∈ s.take a ∨ x ∈ (s.drop a).take b := by
  rw [List.take_add] at h
  exact List.mem_append.mp h

theorem oneByte_over {P : Nat → Prop} {f : Nat → Bool} (hf : ∀ b, f b = true → P b) : Over P (oneByte f) := by
  intro s n h
  cases s with
  | nil => simp [oneByte] at h
  | cons b s =>
    simp only [oneByte] at h
    split at h
    · cases h
      simp
      exact hf b (by assumption)
    · cases h

theorem byte_over {P : Nat → Prop} {b : Nat} (hb : P b) : Over P (byte b) := by
  apply oneByte_over
  intro x hx
  simp at hx
  subst hx
  exact hb

theorem lit_over {P : Nat → Prop} {w : Bytes} (hw : ∀ b ∈ w, P b) : Over P (lit w) := by
  intro s n h
  simp only [lit] at h
  split at h
  · rename_i hc
    cases h
    exact ⟨hc.1, by rw [hc.2]; exact hw⟩
  · cases h

theorem seq_over {P : Nat → Prop} {p q : Peg} (hp : Over P p) (hq : Over P q) : Over P (seq p q) := by
  intro s n h
  obtain ⟨a, b, ha, hb, rfl⟩ := seq_some h
  obtain ⟨h1, h2⟩ := hp _ _ ha
  obtain ⟨h3, h4⟩ := hq _ _ hb
  simp only [List.length_drop] at h3
  refine ⟨by omega, ?_⟩
  intro x hx
  exact (take_add_mem hx).elim (h2 x) (h4 x)

theorem seq3_over {P : Nat → Prop} {p q r : Peg} (hp : Over P p) (hq : Over P q) (hr : Over P r) : Over P (seq3 p q r) := by
  rw [seq3_eq]; exact seq_over (seq_over hp hq) hr

theorem alt_over {P : Nat → Prop} {p q : Peg} (hp : Over P p) (hq : Over P q) : Over P (alt p q) := by
  intro s n h; exact (alt_some h).elim (hp _ _) (hq _ _)

theorem alt3_over {P : Nat → Prop} {p q r : Peg} (hp : Over P p) (hq : Over P q) (hr : Over P r) : Over P (alt3 p q r) := by
  rw [alt3_eq]; exact alt_over hp (alt_over hq hr)

theorem oneOf_over {P : Nat → Prop} {ps : List Peg} (h : ∀ p ∈ ps, Over P p) : Over P (oneOf ps) := by
  intro s n g; obtain ⟨p, hp, hn⟩ := oneOf_some g; exact h p hp _ _ hn

theorem repeatGo_over {P : Nat → Prop} {p : Peg} (hp : Over P p) (k : Nat) (s : Bytes) :
    (repeatGo p k s).1 ≤ s.length ∧ ∀ b ∈ s.take (repeatGo p k s).1, P b := by
  induction k generalizing s with
  | zero => simp [repeatGo]
  | succ k ih =>
    simp only [repeatGo]
    cases h : p s with
    | none => simp
    | some n =>
      obtain ⟨h1, h2⟩ := hp _ _ h
      obtain ⟨h3, h4⟩ := ih (s.drop n)
      simp only [List.length_drop] at h3
      refine ⟨by simp only; omega, ?_⟩
      intro x hx
      exact (take_add_mem hx).elim (h2 x) (h4 x)

theorem repeatAtMost_over {P : Nat → Prop} {p : Peg} (hp : Over P p) (k : Nat) : Over P (repeatAtMost p k) := by
  intro s n h
  simp only [repeatAtMost, Option.some.injEq] at h
  subst h
  exact repeatGo_over hp k s

theorem zeroOrMore_over {P : Nat → Prop} {p : Peg} (hp : Over P p) : Over P (zeroOrMore p) := by
  intro s n h
  simp only [zeroOrMore, Option.some.injEq] at h
  subst h
  exact repeatGo_over hp _ s

theorem oneOrMore_over {P : Nat → Prop} {p : Peg} (hp : Over P p) : Over P (oneOrMore p) := by
  intro s n h
  simp only [oneOrMore, repeatFrom] at h
  split at h
  · cases h
    exact repeatGo_over hp _ s
  · cases h

theorem optional_over {P : Nat → Prop} {p : Peg} (hp : Over P p) : Over P (optional p) := by
  intro s n h
  simp only [optional] at h
  cases hs : p s with
  | none => rw [hs] at h; simp at h; subst h; simp
  | some a => rw [hs] at h; simp at h; subst h; exact hp _ _ hs

theorem failIf_over (P : Nat → Prop) (p : Peg) : Over P (failIf p) := by
  intro s n h
  simp only [failIf] at h
  split at h <;> cases h
  simp

theorem optional_ascii_seq {p q : Peg} (hp : Ascii p) (hq : Ascii q) : Ascii (seq (optional p) q) := by
  intro s n h
  obtain ⟨a, b, ha, hb, rfl⟩ := seq_some h
  simp only [optional] at ha
  cases hs : p s with
  | none => rw [hs] at ha; simp at ha; subst ha; exact hq _ _ (by simpa using hb)
  | some a => exact hp _ _ hs

/-! ## Bytes and characters -/

theorem split_ascii {cs : List Char} {ws r : Bytes} (h : encode cs = ws ++ r) (hw : ∀ b ∈ ws, b < 128) :
    ∃ a rest, cs = a ++ rest ∧ a.map Char.toNat = ws ∧ encode a = ws ∧ encode rest = r := by
  induction ws generalizing cs with
  | nil => exact ⟨[], cs, rfl, rfl, rfl, h⟩
  | cons b ws ih =>
    cases cs with
    | nil => simp [encode] at h
    | cons c cs =>
      have hb : b < 128 := hw b (List.mem_cons_self)
      rw [encode_cons] at h
      rcases encodeChar_cases c with ⟨h1, e⟩ | ⟨h1, h', e⟩ | ⟨h1, h', e⟩ | ⟨h1, h', e⟩
      · rw [e] at h
        simp only [List.cons_append, List.nil_append, List.cons.injEq] at h
        obtain ⟨a, rest, ha, hm, he, hr⟩ := ih h.2 (fun b hb => hw b (List.mem_cons_of_mem _ hb))
        refine ⟨c :: a, rest, by rw [ha]; rfl, by simp [hm, h.1], ?_, hr⟩
        rw [encode_cons, e, he, h.1]
        rfl
      all_goals
        rw [e] at h
        simp only [List.cons_append, List.cons.injEq] at h
        omega

theorem encode_append (a b : List Char) : encode (a ++ b) = encode a ++ encode b := by simp [encode]

theorem encode_length_pos {cs : List Char} (h : cs ≠ []) : 0 < (encode cs).length := by
  cases cs with
  | nil => exact absurd rfl h
  | cons c cs =>
    obtain ⟨b, s, h1, _⟩ := encodeChar_head c
    rw [encode_cons, h1]
    simp

/-- What a parser of ASCII matches in a text. -/
theorem over_chars {P : Nat → Prop} (hP : ∀ b, P b → b < 128) {p : Peg} (hp : Over P p) {cs : List Char} {n : Nat} (h : p (encode cs) = some n) :
    ∃ a rest, cs = a ++ rest ∧ a.length = n ∧ (encode a).length = n ∧ (encode cs).take n = a.map Char.toNat ∧ (encode cs).drop n = encode rest ∧ ∀ c ∈ a, P c.toNat := by
  obtain ⟨h1, h2⟩ := hp _ _ h
  obtain ⟨a, rest, ha, hm, he, hr⟩ := split_ascii (List.take_append_drop n (encode cs)).symm (fun b hb => hP b (h2 b hb))
  have hlen : (encode a).length = n := by rw [he, List.length_take]; omega
  refine ⟨a, rest, ha, ?_, hlen, hm.symm, hr.symm, ?_⟩
  · have := congrArg List.length hm
    rw [List.length_map, List.length_take] at this
    omega
  · intro c hc
    exact h2 _ (hm ▸ List.mem_map_of_mem (f := Char.toNat) hc)

theorem encode_head (c : Char) (t : List Char) : (c.toNat < 128 ∧ encode (c :: t) = c.toNat :: encode t) ∨
    (128 ≤ c.toNat ∧ ∃ b s, encode (c :: t) = b :: (s ++ encode t) ∧ encodeChar c = b :: s ∧ 128 ≤ b ∧ ∀ x ∈ s, 128 ≤ x) := by
  rw [encode_cons]
  rcases encodeChar_cases c with ⟨h1, e⟩ | ⟨h1, h', e⟩ | ⟨h1, h', e⟩ | ⟨h1, h', e⟩
  · left; rw [e]; exact ⟨h1, rfl⟩
  all_goals
    right
    rw [e]
    refine ⟨by omega, _, _, rfl, rfl, by omega, ?_⟩
    intro x hx
    simp only [List.mem_cons, List.not_mem_nil, or_false] at hx
    omega

theorem oneByte_encode {f : Nat → Bool} (hf : ∀ b, f b = true → b < 128) (c : Char) (t : List Char) :
    oneByte f (encode (c :: t)) = if f c.toNat then some 1 else none := by
  rcases encode_head c t with ⟨h, e⟩ | ⟨h, b, s, e, _, hb, _⟩
  · rw [e]; rfl
  · rw [e]
    have h1 : f b = false := by
      cases hfb : f b with
      | false => rfl
      | true => have := hf b hfb; omega
    have h2 : f c.toNat = false := by
      cases hfb : f c.toNat with
      | false => rfl
      | true => have := hf _ hfb; omega
    simp [oneByte, h1, h2]

theorem byte_encode {k : Nat} (hk : k < 128) (c : Char) (t : List Char) : byte k (encode (c :: t)) = if c.toNat = k then some 1 else none := by
  rw [byte, oneByte_encode (byte_lt hk)]
  simp

theorem encode_drop_ascii {c : Char} (h : c.toNat < 128) (t : List Char) : (encode (c :: t)).drop 1 = encode t := by
  rcases encode_head c t with ⟨_, e⟩ | ⟨h', _⟩
  · rw [e]; rfl
  · omega

theorem toNat_inj {c d : Char} (h : c.toNat = d.toNat) : c = d := by
  have := congrArg Char.ofNat h
  simpa using this

theorem byte_char {d : Char} (hd : d.toNat < 128) (c : Char) (t : List Char) : byte (ch d) (encode (c :: t)) = if c = d then some 1 else none := by
  rw [byte_encode (k := ch d) hd]
  by_cases h : c = d
  · subst h; simp [ch]
  · have : c.toNat ≠ ch d := fun e => h (toNat_inj e)
    simp [h, this]

theorem byte_head {d : Char} (hd : d.toNat < 128) (t : List Char) : byte (ch d) (encode t) = if t.head? = some d then some 1 else none := by
  cases t with
  | nil => simp [encode, byte, oneByte]
  | cons c t => rw [byte_char hd]; simp

theorem oneOf_bytes {ds : List Char} (hd : ∀ d ∈ ds, d.toNat < 128) (c : Char) (t : List Char) :
    oneOf ((ds.map ch).map byte) (encode (c :: t)) = if c ∈ ds then some 1 else none := by
  induction ds with
  | nil => simp [oneOf]
  | cons d ds ih =>
    have := ih (fun d hd' => hd d (List.mem_cons_of_mem _ hd'))
    simp only [oneOf, List.map_cons, List.findSome?_cons] at this ⊢
    rw [byte_char (hd d List.mem_cons_self)]
    by_cases h : c = d
    · subst h; simp
    · simp only [h, if_false, this, List.mem_cons, false_or]

theorem oneChar_encode (f : Char → Bool) (c : Char) (t : List Char) : oneChar f (encode (c :: t)) = if f c then some (encodeChar c).length else none := by
  rw [encode_cons, oneChar, decode_encode]

theorem repeatGo_encode {f : Nat → Bool} (hf : ∀ b, f b = true → b < 128) (k : Nat) (t : List Char) :
    repeatGo (oneByte f) k (encode t) = (((t.take k).takeWhile (fun c => f c.toNat)).length, ((t.take k).takeWhile (fun c => f c.toNat)).length) := by
  induction k generalizing t with
  | zero => simp [repeatGo]
  | succ k ih =>
    cases t with
    | nil => simp [repeatGo, encode, oneByte]
    | cons c t =>
      simp only [repeatGo, oneByte_encode hf]
      cases hc : f c.toNat with
      | false => simp [hc]
      | true =>
        simp only [if_true]
        rw [encode_drop_ascii (hf _ hc), ih]
        simp [hc]
        omega

theorem takeWhile_ascii {f : Nat → Bool} (hf : ∀ b, f b = true → b < 128) (t : List Char) (k : Nat) (hk : k ≤ (t.takeWhile (fun c => f c.toNat)).length) :
    (encode t).drop k = encode (t.drop k) := by
  induction t generalizing k with
  | nil => simp [encode]
  | cons c t ih =>
    cases k with
    | zero => simp
    | succ k =>
      simp only [List.takeWhile_cons] at hk
      split at hk
      · rename_i hc
        simp only [List.length_cons] at hk
        have := ih k (by omega)
        rw [List.drop_succ_cons, ← this, ← encode_drop_ascii (hf _ hc) t, List.drop_drop, Nat.add_comm]
      · simp at hk

theorem hex_eq (c : Char) : hex c = isHexDigit c.toNat := by
  have e : ∀ d : Char, d ≤ c ↔ d.toNat ≤ c.toNat := fun d => by rw [Char.le_def, UInt32.le_iff_toNat_le]; rfl
  have e' : ∀ d : Char, c ≤ d ↔ c.toNat ≤ d.toNat := fun d => by rw [Char.le_def, UInt32.le_iff_toNat_le]; rfl
  rw [Bool.eq_iff_iff]
  simp only [hex, isHexDigit, decide_eq_true_eq, Bool.or_eq_true, Bool.and_eq_true, or_assoc]
  simp only [e, e', ch]

theorem isHexDigit_lt : ∀ b, isHexDigit b = true → b < 128 := by
  intro b h
  simp only [isHexDigit, Bool.or_eq_true, Bool.and_eq_true, decide_eq_true_eq] at h
  have h1 : ch '9' = 57 := rfl
  have h2 : ch 'f' = 102 := rfl
  have h3 : ch 'F' = 70 := rfl
  omega

/-! ## Escapes and literals of characters -/

theorem escape_not (c : Char) (t : List Char) (h : c ≠ '\\') : escape (encode (c :: t)) = none := by
  rw [escape, seq, byte_char (by decide)]
  simp [h]

theorem take_takeWhile_length {α : Type} (p : α → Bool) (t : List α) (k : Nat) : ((t.take k).takeWhile p).length = min k (t.takeWhile p).length := by
  induction t generalizing k with
  | nil => simp
  | cons c t ih =>
    cases k with
    | zero => simp
    | succ k =>
      simp only [List.take_succ_cons, List.takeWhile_cons]
      split
      · simp only [List.length_cons, ih]; omega
      · simp

theorem mem_take_takeWhile {α : Type} {p : α → Bool} {t : List α} {k : Nat} (hk : k ≤ (t.takeWhile p).length) {c : α} (hc : c ∈ t.take k) : p c = true := by
  induction t generalizing k with
  | nil => simp at hc
  | cons x t ih =>
    cases k with
    | zero => simp at hc
    | succ k =>
      simp only [List.takeWhile_cons] at hk
      split at hk
      · rename_i hx
        simp only [List.take_succ_cons, List.mem_cons] at hc
        rcases hc with rfl | hc
        · exact hx
        · exact ih (by simpa using hk) hc
      · simp at hk

theorem encode_ascii {a : List Char} (h : ∀ c ∈ a, c.toNat < 128) : (encode a).length = a.length := by
  induction a with
  | nil => rfl
  | cons c a ih =>
    rcases encode_head c a with ⟨_, e⟩ | ⟨h', _⟩
    · rw [e]
      simp [ih (fun c hc => h c (List.mem_cons_of_mem _ hc))]
    · have := h c List.mem_cons_self
      omega

theorem encode_drop {t : List Char} {n : Nat} (hn : n ≤ t.length) (h : ∀ c ∈ t.take n, c.toNat < 128) : (encode t).drop n = encode (t.drop n) := by
  have h1 := encode_ascii h
  rw [List.length_take] at h1
  have e : encode t = encode (t.take n) ++ encode (t.drop n) := by rw [← encode_append, List.take_append_drop]
  have h2 : (encode (t.take n)).length = n := by omega
  rw [e, List.drop_append_of_le_length (by omega), List.drop_eq_nil_of_le (by omega)]
  rfl

theorem hex_plain {c : Char} (h : hex c = true) : c.toNat < 128 ∧ c ≠ '"' ∧ c ≠ '\\' ∧ c ≠ '}' := by
  rw [hex_eq] at h
  refine ⟨isHexDigit_lt _ h, ?_, ?_, ?_⟩ <;> rintro rfl <;> exact absurd h (by decide)

theorem takeWhile_length_le' {α : Type} (p : α → Bool) (t : List α) : (t.takeWhile p).length ≤ t.length := by
  induction t with
  | nil => simp
  | cons c t ih =>
    simp only [List.takeWhile_cons]
    split
    · simpa using ih
    · simp

theorem escapeLen_chars {t : List Char} {n : Nat} (h : escapeLen t = some n) :
    n ≤ t.length ∧ 0 < n ∧ (∀ c ∈ t.take n, c.toNat < 128) ∧ ∀ c ∈ (t.take n).tail, c ≠ '"' ∧ c ≠ '\\' := by
  unfold escapeLen at h
  split at h
  · rename_i t
    cases h
    rw [take_takeWhile_length]
    have hle := takeWhile_length_le' hex t
    refine ⟨by simp only [List.length_cons]; omega, by omega, ?_, ?_⟩
    · intro c hc
      rw [Nat.add_comm, List.take_succ_cons, List.mem_cons] at hc
      rcases hc with rfl | hc
      · decide
      · exact (hex_plain (mem_take_takeWhile (Nat.min_le_right _ _) hc)).1
    · intro c hc
      rw [Nat.add_comm, List.take_succ_cons, List.tail_cons] at hc
      have := hex_plain (mem_take_takeWhile (Nat.min_le_right _ _) hc)
      exact ⟨this.2.1, this.2.2.1⟩
  · rename_i t
    simp only at h
    split at h
    · rename_i hc
      obtain ⟨h1, h2, h3⟩ := hc
      cases h
      obtain ⟨r, hr⟩ : ∃ r, t.drop (t.takeWhile hex).length = '}' :: r := by
        cases hd : t.drop (t.takeWhile hex).length with
        | nil => rw [hd] at h3; cases h3
        | cons x r => rw [hd] at h3; cases h3; exact ⟨r, rfl⟩
      have ht : t = t.take (t.takeWhile hex).length ++ '}' :: r := by rw [← hr, List.take_append_drop]
      have hle := takeWhile_length_le' hex t
      have hlen : (t.take (t.takeWhile hex).length).length = (t.takeWhile hex).length := by rw [List.length_take]; omega
      have hlt : (t.takeWhile hex).length < t.length := by
        have := congrArg List.length ht
        rw [List.length_append, hlen] at this
        simp only [List.length_cons] at this
        omega
      have e : ('u' :: '{' :: t).take ((t.takeWhile hex).length + 3) = 'u' :: '{' :: (t.take (t.takeWhile hex).length ++ ['}']) := by
        have e1 : (t.takeWhile hex).length + 3 = (t.takeWhile hex).length + 1 + 1 + 1 := rfl
        rw [e1, List.take_succ_cons, List.take_succ_cons, List.take_add, hr]
        simp
      refine ⟨by simp only [List.length_cons]; omega, by omega, ?_, ?_⟩
      · intro c hc
        rw [e] at hc
        simp only [List.mem_cons, List.mem_append, List.not_mem_nil, or_false] at hc
        rcases hc with rfl | rfl | hc | rfl
        · decide
        · decide
        · exact (hex_plain (mem_take_takeWhile (Nat.le_refl _) hc)).1
        · decide
      · intro c hc
        rw [e] at hc
        simp only [List.tail_cons, List.mem_cons, List.mem_append, List.not_mem_nil, or_false] at hc
        rcases hc with rfl | hc | rfl
        · decide
        · have := hex_plain (mem_take_takeWhile (Nat.le_refl _) hc)
          exact ⟨this.2.1, this.2.2.1⟩
        · decide
    · cases h
  · split at h
    · rename_i c _ _ _ hc
      cases h
      refine ⟨by simp, by omega, ?_, by simp⟩
      intro x hx
      simp at hx
      subst hx
      have : ∀ c ∈ ['\\', '\'', '"', '0', 'n', 'r', 't'], c.toNat < 128 := by decide
      exact this _ hc
    · cases h
  · cases h

theorem lit_two (x y : Nat) : lit [x, y] = seq (byte x) (byte y) := by
  funext s
  cases s with
  | nil => simp [lit, seq, byte, oneByte]
  | cons a s =>
    cases s with
    | nil => by_cases h : a = x <;> simp [lit, seq, byte, oneByte, h]
    | cons b s =>
      by_cases h : a = x <;> by_cases h' : b = y <;> simp [lit, seq, byte, oneByte, h, h']

theorem lit_encode {d e : Char} (hd : d.toNat < 128) (he : e.toNat < 128) (c : Char) (t : List Char) :
    lit [ch d, ch e] (encode (c :: t)) = if c = d ∧ t.head? = some e then some 2 else none := by
  rw [lit_two, seq, byte_char hd]
  by_cases h : c = d
  · subst h
    simp only [if_true, Option.bind_some, true_and]
    rw [encode_drop_ascii hd, byte_head he]
    split <;> rfl
  · simp [h]

theorem escape_encode (t : List Char) : escape (encode ('\\' :: t)) = (escapeLen t).map (fun n => 1 + n) := by
  rw [escape, seq, byte_char (by decide)]
  simp only [if_true, Option.bind_some]
  rw [encode_drop_ascii (by decide)]
  congr 1
  cases t with
  | nil => rfl
  | cons c t =>
    have h1 : oneOf ((bytes "\\\'\"0nrt").map byte) (encode (c :: t)) = if c ∈ ['\\', '\'', '"', '0', 'n', 'r', 't'] then some 1 else none :=
      oneOf_bytes (ds := ['\\', '\'', '"', '0', 'n', 'r', 't']) (by decide) c t
    have h2 : seq (byte (ch 'x')) (repeatAtMost (oneByte isHexDigit) 2) (encode (c :: t)) =
        if c = 'x' then some (1 + ((t.take 2).takeWhile hex).length) else none := by
      rw [seq, byte_char (d := 'x') (by decide)]
      by_cases h : c = 'x'
      · subst h
        simp only [if_true, Option.bind_some]
        rw [encode_drop_ascii (by decide), repeatAtMost, repeatGo_encode isHexDigit_lt]
        simp only [Option.map_some]
        have : (fun c : Char => isHexDigit c.toNat) = hex := funext (fun c => (hex_eq c).symm)
        rw [this]
      · simp [h]
    have h3 : seq3 (lit (bytes "u{")) (repeatRange (oneByte isHexDigit) 1 7) (byte (ch '}')) (encode (c :: t)) =
        if c = 'u' ∧ t.head? = some '{' then
          (if 1 ≤ (t.tail.takeWhile hex).length ∧ (t.tail.takeWhile hex).length ≤ 6 ∧ (t.tail.drop (t.tail.takeWhile hex).length).head? = some '}' then
            some ((t.tail.takeWhile hex).length + 3) else none) else none := by
      rw [seq3]
      have : lit (bytes "u{") (encode (c :: t)) = _ := lit_encode (d := 'u') (e := '{') (by decide) (by decide) c t
      rw [this]
      by_cases h : c = 'u' ∧ t.head? = some '{'
      · obtain ⟨rfl, ht⟩ := h
        cases t with
        | nil => cases ht
        | cons x t =>
          cases ht
          simp only [List.head?_cons, and_self, if_true, Option.bind_some, List.tail_cons]
          have hd2 : (encode ('u' :: '{' :: t)).drop 2 = encode t := by
            have : (encode ('u' :: '{' :: t)).drop 2 = ((encode ('u' :: '{' :: t)).drop 1).drop 1 := by rw [List.drop_drop]
            rw [this, encode_drop_ascii (by decide), encode_drop_ascii (by decide)]
          have hfun : (fun c : Char => isHexDigit c.toNat) = hex := funext (fun c => (hex_eq c).symm)
          rw [hd2, repeatRange, repeatGo_encode isHexDigit_lt, hfun, take_takeWhile_length]
          have hdn : (encode ('u' :: '{' :: t)).drop (2 + min (7 - 1) (t.takeWhile hex).length) = encode (t.drop (min (7 - 1) (t.takeWhile hex).length)) := by
            rw [← List.drop_drop, hd2]
            apply encode_drop
            · have := takeWhile_length_le' hex t; omega
            · intro c hc
              exact (hex_plain (mem_take_takeWhile (Nat.min_le_right _ _) hc)).1
          by_cases hn1 : 1 ≤ (t.takeWhile hex).length
          · have : min (7 - 1) (t.takeWhile hex).length ≥ 1 := by omega
            simp only [this, if_true, Option.bind_some]
            rw [hdn, byte_head (by decide)]
            by_cases hn6 : (t.takeWhile hex).length ≤ 6
            · have : min (7 - 1) (t.takeWhile hex).length = (t.takeWhile hex).length := by omega
              rw [this]
              by_cases hb : (t.drop (t.takeWhile hex).length).head? = some '}'
              · simp only [hb, hn1, hn6, and_self, if_true, Option.map_some]
                congr 1
                omega
              · simp only [hb, and_false, if_false, Option.map_none]
            · have h6 : min (7 - 1) (t.takeWhile hex).length = 6 := by omega
              rw [h6]
              have hb : (t.drop 6).head? ≠ some '}' := by
                intro hb
                have hm : '}' ∈ t.take 7 := by
                  have : t.take 7 = t.take 6 ++ (t.drop 6).take 1 := List.take_add (i := 6) (j := 1)
                  rw [this]
                  apply List.mem_append_right
                  cases hd : t.drop 6 with
                  | nil => rw [hd] at hb; cases hb
                  | cons x r => rw [hd] at hb; cases hb; simp
                exact (hex_plain (mem_take_takeWhile (p := hex) (k := 7) (by omega) hm)).2.2.2 rfl
              simp only [hb, hn6, if_false, false_and, and_false, Option.map_none]
          · have : ¬ min (7 - 1) (t.takeWhile hex).length ≥ 1 := by omega
            simp [this, hn1]
      · simp [h]
    rw [alt3, h1, h2, h3]
    by_cases hx : c = 'x'
    · subst hx
      simp [escapeLen]
    · by_cases hu : c = 'u'
      · subst hu
        cases t with
        | nil => simp [escapeLen]
        | cons x t =>
          by_cases hx : x = '{'
          · subst hx
            simp [escapeLen]
          · simp [escapeLen, hx]
      · simp only [hx, hu, if_false, false_and, Option.or_none]
        symm
        rw [escapeLen.eq_def]
        split
        · rename_i heq; simp only [List.cons.injEq] at heq; exact absurd heq.1 hx
        · rename_i heq; simp only [List.cons.injEq] at heq; exact absurd heq.1 hu
        · rename_i heq; simp only [List.cons.injEq] at heq; rw [heq.1]
        · rename_i heq; cases heq

theorem charLiteral_encode (cs : List Char) : charLiteral (encode cs) = (charLen cs).map (fun n => (encode (cs.take n)).length) := by
  cases cs with
  | nil => rfl
  | cons q cs =>
    rw [charLiteral, seq3, byte_char (by decide)]
    by_cases hq : q = '\''
    · subst hq
      simp only [if_true, Option.bind_some]
      rw [encode_drop_ascii (by decide)]
      cases cs with
      | nil => rfl
      | cons c t =>
        rw [alt, oneChar_encode]
        by_cases h1 : c = '\\'
        · subst h1
          have : escape (encode ('\\' :: t)) = _ := escape_encode t
          simp only [ne_eq, not_true_eq_false, decide_false, Bool.false_and, Bool.false_eq_true, if_false, Option.none_or, this]
          cases he : escapeLen t with
          | none => simp [charLen, he]
          | some n =>
            obtain ⟨k1, k2, k3, k4⟩ := escapeLen_chars he
            simp only [Option.map_some, Option.bind_some, charLen, he]
            have hd : (encode ('\'' :: '\\' :: t)).drop (1 + (1 + n)) = encode (t.drop n) := by
              rw [← List.drop_drop, encode_drop_ascii (by decide), ← List.drop_drop, encode_drop_ascii (by decide), encode_drop k1 k3]
            rw [hd, byte_head (by decide)]
            by_cases hh : (t.drop n).head? = some '\''
            · simp only [hh, if_true, Option.map_some]
              congr 1
              obtain ⟨r, hr⟩ : ∃ r, t.drop n = '\'' :: r := by
                cases hdn : t.drop n with
                | nil => rw [hdn] at hh; cases hh
                | cons x r => rw [hdn] at hh; cases hh; exact ⟨r, rfl⟩
              have e : ('\'' :: '\\' :: t).take (n + 3) = '\'' :: '\\' :: (t.take n ++ ['\'']) := by
                have e1 : n + 3 = n + 1 + 1 + 1 := rfl
                rw [e1, List.take_succ_cons, List.take_succ_cons, List.take_add, hr]
                simp
              rw [e, encode_ascii]
              · simp only [List.length_cons, List.length_append, List.length_take, List.length_nil]
                omega
              · intro c hc
                simp only [List.mem_cons, List.mem_append, List.not_mem_nil, or_false] at hc
                rcases hc with rfl | rfl | hc | rfl
                · decide
                · decide
                · exact k3 c hc
                · decide
            · simp only [hh, if_false, Option.map_none]
        · have he := escape_not c t h1
          by_cases h2 : c = '\''
          · subst h2
            simp only [ne_eq, not_true_eq_false, decide_false, Bool.and_false, Bool.false_eq_true, if_false, he, Option.or_none, Option.bind_none]
            rw [charLen.eq_def]
            split
            · rename_i heq; cases heq
            · rename_i heq; simp only [List.cons.injEq] at heq; simp [← heq.2.1]
            · rfl
          · have hdec : (decide (c ≠ '\\') && decide (c ≠ '\'')) = true := by simp [h1, h2]
            simp only [hdec, if_true, Option.some_or, Option.bind_some]
            have hd : (encode ('\'' :: c :: t)).drop (1 + (encodeChar c).length) = encode t := by
              rw [← List.drop_drop, encode_drop_ascii (by decide), encode_cons, List.drop_left]
            rw [hd, byte_head (by decide)]
            cases t with
            | nil =>
              have hcl : charLen ['\'', c] = none := by
                rw [charLen.eq_def]
                split
                · rename_i heq; simp only [List.cons.injEq] at heq; exact absurd heq.2.1 h1
                · rename_i heq; simp at heq
                · rfl
              simp [hcl]
            | cons x t =>
              by_cases hx : x = '\''
              · subst hx
                have hcl : charLen ('\'' :: c :: '\'' :: t) = some 3 := by
                  rw [charLen.eq_def]
                  split
                  · rename_i heq; simp only [List.cons.injEq] at heq; exact absurd heq.2.1 h1
                  · rename_i heq; simp only [List.cons.injEq] at heq; simp [← heq.2.1, h2]
                  · rename_i h; exact absurd rfl (h c t)
                rw [hcl]
                simp only [List.head?_cons, if_true, Option.map_some, List.take_succ_cons, List.take_zero]
                congr 1
                rw [encode_cons, encode_cons, List.length_append, List.length_append]
                have e1 : (encodeChar '\'').length = 1 := by decide
                have e2 : (encode ['\'']).length = 1 := by decide
                omega
              · have hcl : charLen ('\'' :: c :: x :: t) = none := by
                  rw [charLen.eq_def]
                  split
                  · rename_i heq; simp only [List.cons.injEq] at heq; exact absurd heq.2.1 h1
                  · rename_i heq; simp only [List.cons.injEq] at heq; exact absurd heq.2.2.1 hx
                  · rfl
                simp [hcl, hx]
    · have hcl : charLen (q :: cs) = none := by
        rw [charLen.eq_def]
        split
        · rename_i heq; simp only [List.cons.injEq] at heq; exact absurd heq.1 hq
        · rename_i heq; simp only [List.cons.injEq] at heq; exact absurd heq.1 hq
        · rfl
      simp [hq, hcl]

end Lang

end Xi
