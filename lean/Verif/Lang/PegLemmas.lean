import Verif.Lang.Peg
import Verif.Spec.LangUtf8
/-!
# Lemmas on parsing expressions
-/

namespace Xi

namespace Lang

theorem encodeChar_cases (c : Char) :
    (c.toNat < 0x80 ∧ encodeChar c = [c.toNat]) ∨
    (0x80 ≤ c.toNat ∧ c.toNat < 0x800 ∧ encodeChar c = [0xc0 + c.toNat / 64, 0x80 + c.toNat % 64]) ∨
    (0x800 ≤ c.toNat ∧ c.toNat < 0x10000 ∧ encodeChar c = [0xe0 + c.toNat / 4096, 0x80 + c.toNat / 64 % 64, 0x80 + c.toNat % 64]) ∨
    (0x10000 ≤ c.toNat ∧ c.toNat < 0x110000 ∧
      encodeChar c = [0xf0 + c.toNat / 262144, 0x80 + c.toNat / 4096 % 64, 0x80 + c.toNat / 64 % 64, 0x80 + c.toNat % 64]) := by
  have hv : c.toNat < 0x110000 := by
    have := c.valid
    simp only [UInt32.isValidChar, Nat.isValidChar] at this
    have e : c.toNat = c.val.toNat := rfl
    omega
  unfold encodeChar
  by_cases h1 : c.toNat < 0x80
  · left; simp [h1]
  · by_cases h2 : c.toNat < 0x800
    · right; left; simp only [h1, h2, if_true, if_false]; exact ⟨by omega, trivial, trivial⟩
    · by_cases h3 : c.toNat < 0x10000
      · right; right; left; simp only [h1, h2, h3, if_true, if_false]; exact ⟨by omega, trivial, trivial⟩
      · right; right; right; simp only [h1, h2, h3, if_false]; exact ⟨by omega, hv, trivial⟩

theorem encodeChar_head (c : Char) : ∃ b s, encodeChar c = b :: s ∧ (b < 128 → s = []) := by
  rcases encodeChar_cases c with ⟨h, e⟩ | ⟨h, h', e⟩ | ⟨h, h', e⟩ | ⟨h, h', e⟩ <;> rw [e] <;> refine ⟨_, _, rfl, ?_⟩ <;> intro hb
  · rfl
  all_goals omega

theorem fromU32_toNat (c : Char) : fromU32 c.toNat = some c := by
  have : c.toNat.isValidChar := c.valid
  simp only [fromU32, this, if_true, Char.ofNat_toNat]

theorem continuation (n : Nat) (h : n < 64) : notContinuation (0x80 + n) = false := by
  have : ¬ 0x80 + n < 128 := by omega
  simp only [notContinuation, this, if_false, decide_eq_false_iff_not]
  omega

theorem decode_encode (c : Char) (s : Bytes) : decodeUtf8 (encodeChar c ++ s) = some (c, (encodeChar c).length) := by
  rcases encodeChar_cases c with ⟨h, e⟩ | ⟨h, h', e⟩ | ⟨h, h', e⟩ | ⟨h, h', e⟩
  · rw [e]
    simp only [List.singleton_append, decodeUtf8, h, if_true, Char.ofNat_toNat, List.length_singleton]
  · rw [e]
    have k1 : ¬ 0xc0 + c.toNat / 64 < 0x80 := by omega
    have k2 : 0xc0 + c.toNat / 64 ≥ 0xc2 ∧ 0xc0 + c.toNat / 64 < 0xe0 ∧ (s.length + 1) ≥ 1 := by omega
    have k3 : (0xc0 + c.toNat / 64) * 64 + (0x80 + c.toNat % 64) - 0x3080 = c.toNat := by omega
    simp only [List.cons_append, List.nil_append, decodeUtf8, k1, if_false, List.length_cons, k2, and_self, if_true, List.getD_cons_zero, continuation _ (Nat.mod_lt _ (by omega : 0 < 64)),
      k3, fromU32_toNat, Bool.false_eq_true, Option.map_some, List.length_nil]
  · rw [e]
    have k1 : ¬ 0xe0 + c.toNat / 4096 < 0x80 := by omega
    have k2 : ¬ (0xe0 + c.toNat / 4096 ≥ 0xc2 ∧ 0xe0 + c.toNat / 4096 < 0xe0 ∧ (s.length + 1 + 1) ≥ 1) := by omega
    have k2' : 0xe0 + c.toNat / 4096 ≥ 0xe0 ∧ 0xe0 + c.toNat / 4096 < 0xf0 ∧ (s.length + 1 + 1) ≥ 2 := by omega
    have k3 : (0xe0 + c.toNat / 4096) * 4096 + (0x80 + c.toNat / 64 % 64) * 64 + (0x80 + c.toNat % 64) - 0xe2080 = c.toNat := by omega
    have k4 : ¬ c.toNat < 0x800 := by omega
    simp only [List.cons_append, List.nil_append, decodeUtf8, k1, if_false, List.length_cons, k2, k2', and_self, if_true, List.getD_cons_zero, List.getD_cons_succ,
      continuation _ (Nat.mod_lt _ (by omega : 0 < 64)), k3, k4, fromU32_toNat, Bool.false_eq_true, Bool.or_self, Option.map_some, List.length_nil]
  · rw [e]
    have k1 : ¬ 0xf0 + c.toNat / 262144 < 0x80 := by omega
    have k2 : ¬ (0xf0 + c.toNat / 262144 ≥ 0xc2 ∧ 0xf0 + c.toNat / 262144 < 0xe0 ∧ (s.length + 1 + 1 + 1) ≥ 1) := by omega
    have k2' : ¬ (0xf0 + c.toNat / 262144 ≥ 0xe0 ∧ 0xf0 + c.toNat / 262144 < 0xf0 ∧ (s.length + 1 + 1 + 1) ≥ 2) := by omega
    have k2'' : 0xf0 + c.toNat / 262144 ≥ 0xf0 ∧ 0xf0 + c.toNat / 262144 < 0xf5 ∧ (s.length + 1 + 1 + 1) ≥ 3 := by omega
    have k3 : (0xf0 + c.toNat / 262144) * 262144 + (0x80 + c.toNat / 4096 % 64) * 4096 + (0x80 + c.toNat / 64 % 64) * 64 + (0x80 + c.toNat % 64) - 0x03c82080 = c.toNat := by omega
    have k4 : ¬ c.toNat < 0x10000 := by omega
    simp only [List.cons_append, List.nil_append, decodeUtf8, k1, if_false, List.length_cons, k2, k2', k2'', and_self, if_true, List.getD_cons_zero, List.getD_cons_succ,
      continuation _ (Nat.mod_lt _ (by omega : 0 < 64)), k3, k4, fromU32_toNat, Bool.false_eq_true, Bool.or_self, Option.map_some, List.length_nil]

theorem decode_fits {s : Bytes} {c : Char} {n : Nat} (h : decodeUtf8 s = some (c, n)) : 0 < n ∧ n ≤ s.length := by
  cases s with
  | nil => simp [decodeUtf8] at h
  | cons b s =>
    simp only [decodeUtf8] at h
    split at h
    · cases h; simp
    · split at h
      · rename_i hb
        split at h
        · cases h
        · simp only [Option.map_eq_some_iff] at h
          obtain ⟨_, _, h⟩ := h
          cases h
          simp only [List.length_cons]
          omega
      · split at h
        · rename_i hb
          split at h
          · cases h
          · split at h
            · cases h
            · simp only [Option.map_eq_some_iff] at h
              obtain ⟨_, _, h⟩ := h
              cases h
              simp only [List.length_cons]
              omega
        · split at h
          · rename_i hb
            split at h
            · cases h
            · split at h
              · cases h
              · simp only [Option.map_eq_some_iff] at h
                obtain ⟨_, _, h⟩ := h
                cases h
                simp only [List.length_cons]
                omega
          · cases h

theorem Valid.nil : Valid [] := ⟨[], rfl⟩

theorem encode_cons (c : Char) (text : List Char) : encode (c :: text) = encodeChar c ++ encode text := by simp [encode]

theorem Valid.tail {b : Nat} {s : Bytes} (h : Valid (b :: s)) (hb : b < 128) : Valid s := by
  obtain ⟨text, ht⟩ := h
  cases text with
  | nil => simp [encode] at ht
  | cons c text =>
    obtain ⟨b', s', h1, h2⟩ := encodeChar_head c
    rw [encode_cons, h1] at ht
    simp only [List.cons_append, List.cons.injEq] at ht
    rw [h2 (ht.1 ▸ hb)] at ht
    exact ⟨text, ht.2⟩

/-- A suffix of a text that begins with an ASCII byte is a text. -/
theorem Valid.suffix {a s : Bytes} {b : Nat} (h : Valid (a ++ b :: s)) (hb : b < 128) : Valid (b :: s) := by
  obtain ⟨text, ht⟩ := h
  induction text generalizing a with
  | nil => simp [encode] at ht
  | cons c text ih =>
    rw [encode_cons] at ht
    by_cases hl : (encodeChar c).length ≤ a.length
    · have ha : a = encodeChar c ++ a.drop (encodeChar c).length := by
        have h1 := congrArg (List.take (encodeChar c).length) ht
        rw [List.take_append_of_le_length hl, List.take_left] at h1
        conv => lhs; rw [← List.take_append_drop (encodeChar c).length a, h1]
      rw [ha, List.append_assoc] at ht
      exact ih (List.append_cancel_left ht)
    · by_cases ha : a = []
      · subst ha
        exact ⟨c :: text, by rw [encode_cons]; exact ht⟩
      · exfalso
        -- the byte would be in the middle of a character
        have hget : (encodeChar c)[a.length]? = some b := by
          have h1 : (a ++ b :: s)[a.length]? = some b := by simp
          rwa [ht, List.getElem?_append_left (by omega)] at h1
        have hpos : 0 < a.length := List.length_pos_iff.mpr ha
        revert hl hget hpos
        generalize a.length = k
        intro hl hget hpos
        revert hl hget
        rcases encodeChar_cases c with ⟨h, e⟩ | ⟨h, h', e⟩ | ⟨h, h', e⟩ | ⟨h, h', e⟩ <;> rw [e] <;> intro hl hget
        · simp at hl; omega
        · have : k = 1 := by simp at hl; omega
          subst this
          simp at hget
          omega
        · have : k = 1 ∨ k = 2 := by simp at hl; omega
          rcases this with rfl | rfl <;> simp at hget <;> omega
        · have : k = 1 ∨ k = 2 ∨ k = 3 := by simp at hl; omega
          rcases this with rfl | rfl | rfl <;> simp at hget <;> omega

/-- A parser that matches bytes that are there, and between characters. -/
structure Good (p : Peg) : Prop where
  fits : ∀ {s n}, p s = some n → n ≤ s.length
  cuts : ∀ {s n}, p s = some n → Valid s → Valid (s.drop n)

/-- A parser that matches at least one byte. -/
def Eats (p : Peg) : Prop := ∀ s n, p s = some n → 0 < n

/-- A parser that matches only what begins with a byte of ASCII. -/
def Ascii (p : Peg) : Prop := ∀ s n, p s = some n → ∃ b s', s = b :: s' ∧ b < 128

theorem oneByte_good {f : Nat → Bool} (hf : ∀ b, f b = true → b < 128) : Good (oneByte f) := by
  refine ⟨?_, ?_⟩ <;> intro s n h <;> cases s with
  | nil => simp [oneByte] at h
  | cons b s =>
    simp only [oneByte] at h
    split at h
    · cases h
      first
        | (simp; done)
        | (intro hv; exact hv.tail (hf b (by assumption)))
    · cases h

theorem oneByte_eats {f : Nat → Bool} : Eats (oneByte f) := by
  intro s n h
  cases s with
  | nil => simp [oneByte] at h
  | cons b s =>
    simp only [oneByte] at h
    split at h
    · cases h; omega
    · cases h

theorem oneByte_ascii {f : Nat → Bool} (hf : ∀ b, f b = true → b < 128) : Ascii (oneByte f) := by
  intro s n h
  cases s with
  | nil => simp [oneByte] at h
  | cons b s =>
    simp only [oneByte] at h
    split at h
    · exact ⟨b, s, rfl, hf b (by assumption)⟩
    · cases h

theorem byte_lt {b : Nat} (hb : b < 128) : ∀ x, decide (x = b) = true → x < 128 := by
  intro x hx
  simp at hx
  omega

theorem byte_good {b : Nat} (hb : b < 128) : Good (byte b) := oneByte_good (byte_lt hb)

theorem byte_ascii {b : Nat} (hb : b < 128) : Ascii (byte b) := oneByte_ascii (byte_lt hb)

theorem oneChar_good (f : Char → Bool) : Good (oneChar f) := by
  have key : ∀ {s n}, oneChar f s = some n → ∃ c, decodeUtf8 s = some (c, n) := by
    intro s n h
    simp only [oneChar] at h
    split at h
    · split at h
      · cases h; exact ⟨_, by assumption⟩
      · cases h
    · cases h
  refine ⟨?_, ?_⟩
  · intro s n h
    obtain ⟨c, hc⟩ := key h
    exact (decode_fits hc).2
  · intro s n h hv
    obtain ⟨c, hc⟩ := key h
    obtain ⟨text, ht⟩ := hv
    cases text with
    | nil => subst ht; simp [encode, decodeUtf8] at hc
    | cons c' text =>
      rw [encode_cons] at ht
      rw [ht, decode_encode] at hc
      cases hc
      rw [ht, List.drop_left]
      exact ⟨text, rfl⟩

theorem oneChar_eats (f : Char → Bool) : Eats (oneChar f) := by
  intro s n h
  simp only [oneChar] at h
  split at h
  · split at h
    · cases h
      rename_i hd
      exact (decode_fits (by assumption)).1
    · cases h
  · cases h

theorem valid_drop_ascii {w : Bytes} (hw : ∀ b ∈ w, b < 128) {s : Bytes} (h : Valid s) (hs : s.take w.length = w) (hl : w.length ≤ s.length) : Valid (s.drop w.length) := by
  induction w generalizing s with
  | nil => simpa using h
  | cons b w ih =>
    cases s with
    | nil => simp at hl
    | cons x s =>
      simp only [List.length_cons, List.take_succ_cons, List.cons.injEq] at hs
      obtain ⟨rfl, hs⟩ := hs
      simp only [List.length_cons, List.drop_succ_cons]
      exact ih (fun b hb => hw b (List.mem_cons_of_mem _ hb)) (h.tail (hw x (List.mem_cons_self))) hs (by simpa using hl)

theorem lit_good {w : Bytes} (hw : ∀ b ∈ w, b < 128) : Good (lit w) := by
  refine ⟨?_, ?_⟩
  · intro s n h
    simp only [lit] at h
    split at h
    · cases h; omega
    · cases h
  · intro s n h hv
    simp only [lit] at h
    split at h
    · rename_i hc
      cases h
      exact valid_drop_ascii hw hv hc.2 hc.1
    · cases h

theorem lit_eats {w : Bytes} (hw : w ≠ []) : Eats (lit w) := by
  intro s n h
  simp only [lit] at h
  split at h
  · cases h; exact List.length_pos_iff.mpr hw
  · cases h

theorem lit_ascii {w : Bytes} (hw : ∀ b ∈ w, b < 128) (hn : w ≠ []) : Ascii (lit w) := by
  intro s n h
  simp only [lit] at h
  split at h
  · rename_i hc
    cases w with
    | nil => exact absurd rfl hn
    | cons b w =>
      cases s with
      | nil => simp at hc
      | cons x s =>
        simp only [List.length_cons, List.take_succ_cons, List.cons.injEq] at hc
        exact ⟨x, s, rfl, hc.2.1 ▸ hw b (List.mem_cons_self)⟩
  · cases h

theorem seq_some {p q : Peg} {s : Bytes} {n : Nat} (h : seq p q s = some n) : ∃ a b, p s = some a ∧ q (s.drop a) = some b ∧ n = a + b := by
  simp only [seq, Option.bind_eq_some_iff, Option.map_eq_some_iff] at h
  obtain ⟨a, ha, b, hb, rfl⟩ := h
  exact ⟨a, b, ha, hb, rfl⟩

theorem seq_good {p q : Peg} (hp : Good p) (hq : Good q) : Good (seq p q) := by
  refine ⟨?_, ?_⟩
  · intro s n h
    obtain ⟨a, b, ha, hb, rfl⟩ := seq_some h
    have h1 := hp.fits ha
    have h2 := hq.fits hb
    simp only [List.length_drop] at h2
    omega
  · intro s n h hv
    obtain ⟨a, b, ha, hb, rfl⟩ := seq_some h
    have := hq.cuts hb (hp.cuts ha hv)
    rwa [List.drop_drop] at this

theorem seq_eats_left {p q : Peg} (hp : Eats p) : Eats (seq p q) := by
  intro s n h
  obtain ⟨a, b, ha, hb, rfl⟩ := seq_some h
  have := hp _ _ ha
  omega

theorem seq_eats_right {p q : Peg} (hq : Eats q) : Eats (seq p q) := by
  intro s n h
  obtain ⟨a, b, ha, hb, rfl⟩ := seq_some h
  have := hq _ _ hb
  omega

theorem seq_ascii {p q : Peg} (hp : Ascii p) : Ascii (seq p q) := by
  intro s n h
  obtain ⟨a, b, ha, hb, rfl⟩ := seq_some h
  exact hp _ _ ha

theorem seq3_eq (p q r : Peg) : seq3 p q r = seq (seq p q) r := by
  funext s
  simp only [seq3, seq]
  cases h1 : p s with
  | none => rfl
  | some a =>
    simp only [Option.bind_some]
    cases h2 : q (s.drop a) with
    | none => rfl
    | some b => simp

theorem seq3_good {p q r : Peg} (hp : Good p) (hq : Good q) (hr : Good r) : Good (seq3 p q r) := by
  rw [seq3_eq]; exact seq_good (seq_good hp hq) hr

theorem seq3_eats {p q r : Peg} (hp : Eats p) : Eats (seq3 p q r) := by
  rw [seq3_eq]; exact seq_eats_left (seq_eats_left hp)

theorem seq3_ascii {p q r : Peg} (hp : Ascii p) : Ascii (seq3 p q r) := by
  rw [seq3_eq]; exact seq_ascii (seq_ascii hp)

theorem alt_some {p q : Peg} {s : Bytes} {n : Nat} (h : alt p q s = some n) : p s = some n ∨ q s = some n := by
  simp only [alt] at h
  cases hp : p s with
  | none => rw [hp] at h; simp at h; exact Or.inr h
  | some a => rw [hp] at h; simp at h; subst h; exact Or.inl rfl

theorem alt_good {p q : Peg} (hp : Good p) (hq : Good q) : Good (alt p q) := by
  refine ⟨?_, ?_⟩
  · intro s n h; exact (alt_some h).elim hp.fits hq.fits
  · intro s n h; exact (alt_some h).elim hp.cuts hq.cuts

theorem alt_eats {p q : Peg} (hp : Eats p) (hq : Eats q) : Eats (alt p q) := by
  intro s n h; exact (alt_some h).elim (hp _ _) (hq _ _)

theorem alt_ascii {p q : Peg} (hp : Ascii p) (hq : Ascii q) : Ascii (alt p q) := by
  intro s n h; exact (alt_some h).elim (hp _ _) (hq _ _)

theorem alt3_eq (p q r : Peg) : alt3 p q r = alt p (alt q r) := rfl

theorem oneOf_some {ps : List Peg} {s : Bytes} {n : Nat} (h : oneOf ps s = some n) : ∃ p ∈ ps, p s = some n := by
  simp only [oneOf] at h
  obtain ⟨p, hp, hn⟩ := List.exists_of_findSome?_eq_some h
  exact ⟨p, hp, hn⟩

theorem oneOf_good {ps : List Peg} (h : ∀ p ∈ ps, Good p) : Good (oneOf ps) := by
  refine ⟨?_, ?_⟩
  · intro s n g; obtain ⟨p, hp, hn⟩ := oneOf_some g; exact (h p hp).fits hn
  · intro s n g; obtain ⟨p, hp, hn⟩ := oneOf_some g; exact (h p hp).cuts hn

theorem oneOf_eats {ps : List Peg} (h : ∀ p ∈ ps, Eats p) : Eats (oneOf ps) := by
  intro s n g; obtain ⟨p, hp, hn⟩ := oneOf_some g; exact h p hp _ _ hn

theorem oneOf_ascii {ps : List Peg} (h : ∀ p ∈ ps, Ascii p) : Ascii (oneOf ps) := by
  intro s n g; obtain ⟨p, hp, hn⟩ := oneOf_some g; exact h p hp _ _ hn

theorem repeatGo_good {p : Peg} (hp : Good p) (k : Nat) (s : Bytes) : (repeatGo p k s).1 ≤ s.length ∧ (Valid s → Valid (s.drop (repeatGo p k s).1)) := by
  induction k generalizing s with
  | zero => simp [repeatGo]
  | succ k ih =>
    simp only [repeatGo]
    cases h : p s with
    | none => simp
    | some n =>
      have h1 := hp.fits h
      obtain ⟨h2, h3⟩ := ih (s.drop n)
      simp only [List.length_drop] at h2
      refine ⟨by simp only; omega, ?_⟩
      intro hv
      have := h3 (hp.cuts h hv)
      rwa [List.drop_drop] at this

/-- The loops have come to an end. -/
theorem repeatGo_done {p : Peg} (hp : Good p) (he : Eats p) (k : Nat) (s : Bytes) (hk : s.length < k) : p (s.drop (repeatGo p k s).1) = none := by
  induction k generalizing s with
  | zero => omega
  | succ k ih =>
    simp only [repeatGo]
    cases h : p s with
    | none => simpa using h
    | some n =>
      have h1 := hp.fits h
      have h2 := he _ _ h
      simp only
      rw [← List.drop_drop]
      apply ih
      simp only [List.length_drop]
      omega

theorem repeatGo_eats {p : Peg} (he : Eats p) (k : Nat) (s : Bytes) : (repeatGo p k s).2 ≤ (repeatGo p k s).1 := by
  induction k generalizing s with
  | zero => simp [repeatGo]
  | succ k ih =>
    simp only [repeatGo]
    cases h : p s with
    | none => simp
    | some n =>
      have := he _ _ h
      have := ih (s.drop n)
      simp only
      omega

theorem repeatAtMost_good {p : Peg} (hp : Good p) (k : Nat) : Good (repeatAtMost p k) := by
  refine ⟨?_, ?_⟩ <;> intro s n h <;> simp only [repeatAtMost, Option.some.injEq] at h <;> subst h
  · exact (repeatGo_good hp k s).1
  · exact (repeatGo_good hp k s).2

theorem repeatRange_good {p : Peg} (hp : Good p) (a b : Nat) : Good (repeatRange p a b) := by
  refine ⟨?_, ?_⟩ <;> intro s n h <;> simp only [repeatRange] at h <;> split at h <;> cases h
  · exact (repeatGo_good hp _ s).1
  · exact (repeatGo_good hp _ s).2

theorem repeatFrom_good {p : Peg} (hp : Good p) (a : Nat) : Good (repeatFrom p a) := by
  refine ⟨?_, ?_⟩ <;> intro s n h <;> simp only [repeatFrom] at h <;> split at h <;> cases h
  · exact (repeatGo_good hp _ s).1
  · exact (repeatGo_good hp _ s).2

theorem zeroOrMore_good {p : Peg} (hp : Good p) : Good (zeroOrMore p) := by
  refine ⟨?_, ?_⟩ <;> intro s n h <;> simp only [zeroOrMore, Option.some.injEq] at h <;> subst h
  · exact (repeatGo_good hp _ s).1
  · exact (repeatGo_good hp _ s).2

theorem oneOrMore_eats {p : Peg} (he : Eats p) : Eats (oneOrMore p) := by
  intro s n h
  simp only [oneOrMore, repeatFrom] at h
  split at h
  · rename_i hc
    cases h
    have := repeatGo_eats he (s.length + 1) s
    omega
  · cases h

theorem oneOrMore_ascii {p : Peg} (he : Ascii p) : Ascii (oneOrMore p) := by
  intro s n h
  cases hp : p s with
  | none => simp [oneOrMore, repeatFrom, repeatGo, hp] at h
  | some a => exact he _ _ hp

theorem optional_good {p : Peg} (hp : Good p) : Good (optional p) := by
  have key : ∀ {s n}, optional p s = some n → p s = some n ∨ n = 0 := by
    intro s n h
    simp only [optional] at h
    cases hs : p s with
    | none => rw [hs] at h; simp at h; exact Or.inr h.symm
    | some a => rw [hs] at h; simp at h; subst h; exact Or.inl rfl
  refine ⟨?_, ?_⟩
  · intro s n h; rcases key h with h | rfl; · exact hp.fits h
    · omega
  · intro s n h; rcases key h with h | rfl; · exact hp.cuts h
    · simp

theorem failIf_good (p : Peg) : Good (failIf p) := by
  refine ⟨?_, ?_⟩ <;> intro s n h <;> simp only [failIf] at h <;> split at h <;> cases h <;> simp

end Lang

end Xi
