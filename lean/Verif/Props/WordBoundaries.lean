import Verif.Core.WordBoundaries
import Verif.Rope.CharCursor
import Verif.Props.Cursor

/-!
# C45: moving by word

What is a word is said from scratch below: characters have a rank (blank, punctuation, anything
else), a word starts where the rank goes up, and ends where it goes down; a line feed is a word
on its own.
-/

namespace Xi

open Find

namespace Word

/-- The punctuation characters: ASCII without letters, digits and the underscore. -/
def punctuation : List Char := ['!', '"', '#', '$', '%', '&', '\'', '(', ')', '*', '+', ',', '-', '.', '/', ':', ';', '<', '=', '>', '?',
  '@', '[', '\\', ']', '^', '`', '{', '|', '}', '~']

/-- Blank 0, punctuation 1, anything else 2. -/
def rank (c : Char) : Nat := if c.toNat ≤ 32 then 0 else if c ∈ punctuation then 1 else 2

/-- A word starts between `a` and `b`. -/
def Starts (a b : Char) : Prop := a = '\n' ∨ b = '\n' ∨ rank a < rank b

/-- A word ends between `a` and `b`. -/
def Ends (a b : Char) : Prop := a = '\n' ∨ b = '\n' ∨ rank b < rank a

/-- One of both. -/
def Edge (a b : Char) : Prop := Starts a b ∨ Ends a b

/-- `k` is inside the text, between two characters in the relation `P`. -/
def Inside (P : Char → Char → Prop) (text : List UInt8) (k : Nat) : Prop :=
  ∃ as a b bs, text = enc (as ++ a :: b :: bs) ∧ k = (enc (as ++ [a])).length ∧ P a b

/-- As `Inside`, or the start of the text. -/
def From (P : Char → Char → Prop) (text : List UInt8) (k : Nat) : Prop := k = 0 ∨ Inside P text k

/-- As `Inside`, or the end of the text. -/
def UpTo (P : Char → Char → Prop) (text : List UInt8) (k : Nat) : Prop := k = text.length ∨ Inside P text k

/-- From outside a word into one. -/
def Enters (a b : Char) : Prop := rank a ≠ 2 ∧ rank b = 2

/-- From a word to the outside. -/
def Leaves (a b : Char) : Prop := rank a = 2 ∧ rank b ≠ 2

/-- An empty line. -/
def Blank (a b : Char) : Prop := a = '\n' ∧ b = '\n'

/-- `s` is the start of what is selected from `p`. -/
def SelectStart (text : List UInt8) (p s : Nat) : Prop :=
  (p = 0 → s = 0) ∧ (0 < p → p = text.length → IsPrev (From Starts text) p (some s)) ∧
  ∀ as a b bs, text = enc (as ++ a :: b :: bs) → p = (enc (as ++ [a])).length →
    (Enters a b ∨ Blank a b → s = p) ∧ (Leaves a b → IsPrev (From Starts text) p (some s)) ∧
    (¬ Enters a b → ¬ Blank a b → ¬ Leaves a b → IsPrev (From Edge text) p (some s))

/-- `e` is the end of what is selected from `p`. -/
def SelectEnd (text : List UInt8) (p e : Nat) : Prop :=
  (p = text.length → e = p) ∧ (p = 0 → p < text.length → IsNext (UpTo Ends text) text.length p (some e)) ∧
  ∀ as a b bs, text = enc (as ++ a :: b :: bs) → p = (enc (as ++ [a])).length →
    (Leaves a b ∨ Blank a b → e = p) ∧ (Enters a b → IsNext (UpTo Ends text) text.length p (some e)) ∧
    (¬ Enters a b → ¬ Blank a b → ¬ Leaves a b → IsNext (UpTo Edge text) text.length p (some e))

/-! ### The classes -/

/-- What `getWordProperty` says about a character, in terms of the rank. -/
theorem property_eq (c : Char) : getWordProperty c = if c = '\n' then .lf else if rank c = 0 then .space else if rank c = 1 then .punctuation else .other := by
  by_cases h : c.toNat < 128
  · have key : ∀ n : Fin 128, getWordProperty (Char.ofNat n.1) = if (Char.ofNat n.1) = '\n' then .lf else if rank (Char.ofNat n.1) = 0 then .space
      else if rank (Char.ofNat n.1) = 1 then .punctuation else .other := by decide +kernel
    have := key ⟨c.toNat, h⟩
    rwa [Char.ofNat_toNat] at this
  · have h1 : c ≠ '\n' := by rintro rfl; exact h (by decide)
    have h2 : c ∉ punctuation := by
      intro hm
      have key : ∀ x ∈ punctuation, x.toNat < 128 := by decide
      exact h (key c hm)
    have h3 : rank c = 2 := by
      unfold rank
      rw [if_neg (by omega), if_neg h2]
    unfold getWordProperty
    rw [if_neg (by omega), if_neg (by omega), if_neg (by omega), if_neg h1, h3]
    rfl

theorem rank_le (c : Char) : rank c ≤ 2 := by
  unfold rank
  repeat' split
  all_goals omega

theorem rank_lf : rank '\n' = 0 := by decide

theorem isStart_iff (a b : Char) : (classifyBoundary (getWordProperty a) (getWordProperty b)).isStart = true ↔ Starts a b := by
  rw [property_eq a, property_eq b]
  unfold Starts
  have h1 := rank_le a; have h2 := rank_le b
  by_cases ha : a = '\n'
  · simp [ha, classifyBoundary, WordBoundary.isStart]
  · by_cases hb : b = '\n'
    · simp only [ha, hb, if_true, if_false, or_true, true_or, iff_true]
      repeat' split
      all_goals rfl
    · simp only [ha, hb, if_false, false_or]
      rcases (by omega : rank a = 0 ∨ rank a = 1 ∨ rank a = 2) with e | e | e <;>
      rcases (by omega : rank b = 0 ∨ rank b = 1 ∨ rank b = 2) with e' | e' | e' <;> simp [e, e', classifyBoundary, WordBoundary.isStart] <;> decide

theorem isEnd_iff (a b : Char) : (classifyBoundary (getWordProperty a) (getWordProperty b)).isEnd = true ↔ Ends a b := by
  rw [property_eq a, property_eq b]
  unfold Ends
  have h1 := rank_le a; have h2 := rank_le b
  by_cases ha : a = '\n'
  · simp [ha, classifyBoundary, WordBoundary.isEnd]
  · by_cases hb : b = '\n'
    · simp only [ha, hb, if_true, if_false, or_true, true_or, iff_true]
      repeat' split
      all_goals rfl
    · simp only [ha, hb, if_false, false_or]
      rcases (by omega : rank a = 0 ∨ rank a = 1 ∨ rank a = 2) with e | e | e <;>
      rcases (by omega : rank b = 0 ∨ rank b = 1 ∨ rank b = 2) with e' | e' | e' <;> simp [e, e', classifyBoundary, WordBoundary.isEnd] <;> decide

theorem isBoundary_eq (x : WordBoundary) : x.isBoundary = (x.isStart || x.isEnd) := by cases x <;> decide

theorem isBoundary_iff (a b : Char) : (classifyBoundary (getWordProperty a) (getWordProperty b)).isBoundary = true ↔ Edge a b := by
  rw [isBoundary_eq, Bool.or_eq_true, isStart_iff, isEnd_iff]
  rfl

theorem initial_eq (a b : Char) : (Enters a b ∧ classifyBoundaryInitial (getWordProperty a) (getWordProperty b) = .start) ∨
    (Leaves a b ∧ classifyBoundaryInitial (getWordProperty a) (getWordProperty b) = .stop) ∨
    (Blank a b ∧ classifyBoundaryInitial (getWordProperty a) (getWordProperty b) = .both) ∨
    ((¬ Enters a b ∧ ¬ Leaves a b ∧ ¬ Blank a b) ∧ classifyBoundaryInitial (getWordProperty a) (getWordProperty b) = .interior) := by
  rw [property_eq a, property_eq b]
  unfold Enters Leaves Blank
  have h1 := rank_le a; have h2 := rank_le b
  have h3 := rank_lf
  by_cases ha : a = '\n' <;> by_cases hb : b = '\n'
  · simp [ha, hb, h3, classifyBoundaryInitial, classifyBoundary]
  · rcases (by omega : rank b = 0 ∨ rank b = 1 ∨ rank b = 2) with e' | e' | e' <;>
      simp [ha, hb, h3, e', classifyBoundaryInitial]
  · rcases (by omega : rank a = 0 ∨ rank a = 1 ∨ rank a = 2) with e' | e' | e' <;>
      simp [ha, hb, h3, e', classifyBoundaryInitial]
  · rcases (by omega : rank a = 0 ∨ rank a = 1 ∨ rank a = 2) with e | e | e <;>
    rcases (by omega : rank b = 0 ∨ rank b = 1 ∨ rank b = 2) with e' | e' | e' <;>
      simp [ha, hb, e, e', classifyBoundaryInitial, classifyBoundary]

/-! ### Places between characters -/

variable {P : Char → Char → Prop} {text : List UInt8}

theorem inside_iff {as bs : List Char} {a b : Char} (h : text = enc (as ++ a :: b :: bs)) : Inside P text (enc (as ++ [a])).length ↔ P a b := by
  constructor
  · rintro ⟨as', a', b', bs', h1, h2, h3⟩
    rw [h] at h1
    have e := enc_inj h1
    have e1 : enc (as ++ [a]) ++ enc (b :: bs) = enc (as' ++ [a']) ++ enc (b' :: bs') := by
      rw [← enc_append, ← enc_append]; simpa using h1
    obtain ⟨x, e2, e3⟩ := cut_prefix e1 (by omega)
    have hx : x = [] := by
      cases x with
      | nil => rfl
      | cons y x =>
        have := enc_pos (a := y :: x) (by simp)
        rw [e2, enc_append (as ++ [a]), List.length_append] at h2
        omega
    subst hx
    simp only [List.append_nil] at e2
    have e4 := List.append_inj' e2 rfl
    simp only [List.nil_append, List.cons.injEq] at e3
    simp at e4
    rw [e3.1, ← e4.2]
    exact h3
  · intro hp
    exact ⟨as, a, b, bs, h, rfl, hp⟩

theorem inside_boundary {k : Nat} (h : Inside P text k) : CharBoundary text k ∧ 0 < k ∧ k < text.length := by
  obtain ⟨as, a, b, bs, h1, h2, _⟩ := h
  refine ⟨?_, ?_, ?_⟩
  · rw [h1]; exact boundary_enc.mpr ⟨as ++ [a], b :: bs, by simp, h2⟩
  · rw [h2]; exact enc_pos (by simp)
  · have := enc_pos (a := b :: bs) (by simp)
    rw [h1, h2, show as ++ a :: b :: bs = (as ++ [a]) ++ b :: bs by simp, enc_append (as ++ [a]), List.length_append]
    omega

theorem inside_gap {A B : List Char} {x : Char} (h : text = enc (A ++ x :: B)) {k : Nat} (h1 : (enc A).length < k) (h2 : k < (enc (A ++ [x])).length) :
    ¬ Inside P text k := by
  intro hi
  have := (inside_boundary hi).1
  rw [h] at this
  exact (prev_char (A := A) (B := B) (c := x)).2.2 k h1 h2 this

theorem enc_lt (A : List Char) (x : Char) : (enc A).length < (enc (A ++ [x])).length := by
  have := enc_pos (a := [x]) (by simp)
  rw [enc_append, List.length_append]; omega

theorem prev_zero {B : List Char} {x : Char} (h : text = enc (x :: B)) : IsPrev (From P text) (enc [x]).length (some 0) := by
  refine ⟨enc_pos (by simp), .inl rfl, ?_⟩
  rintro k h1 h2 (rfl | h3)
  · omega
  · exact inside_gap (A := []) (x := x) (by simpa using h) (by simpa using h1) (by simpa using h2) h3

theorem prev_hit {A B : List Char} {a x : Char} (h : text = enc (A ++ a :: x :: B)) (hp : P a x) :
    IsPrev (From P text) (enc (A ++ [a] ++ [x])).length (some (enc (A ++ [a])).length) := by
  refine ⟨enc_lt _ _, .inr ((inside_iff h).mpr hp), ?_⟩
  rintro k h1 h2 (rfl | h3)
  · omega
  · exact inside_gap (A := A ++ [a]) (x := x) (by simpa using h) h1 h2 h3

theorem prev_step {A B : List Char} {a x : Char} (h : text = enc (A ++ a :: x :: B)) (hp : ¬ P a x) {q : Nat}
    (hq : IsPrev (From P text) (enc (A ++ [a])).length (some q)) : IsPrev (From P text) (enc (A ++ [a] ++ [x])).length (some q) := by
  obtain ⟨h1, h2, h3⟩ := hq
  have hlt := enc_lt (A ++ [a]) x
  refine ⟨by omega, h2, ?_⟩
  intro k hk1 hk2 hk
  rcases Nat.lt_trichotomy k (enc (A ++ [a])).length with hlt | heq | hgt
  · exact h3 k hk1 hlt hk
  · subst heq
    rcases hk with hk | hk
    · omega
    · exact hp ((inside_iff h).mp hk)
  · rcases hk with hk | hk
    · omega
    · exact inside_gap (A := A ++ [a]) (x := x) (by simpa using h) hgt hk2 hk

theorem next_end {A : List Char} {x : Char} (h : text = enc (A ++ [x])) : IsNext (UpTo P text) text.length (enc A).length (some (enc (A ++ [x])).length) := by
  refine ⟨enc_lt _ _, by rw [h]; exact Nat.le_refl _, .inl (by rw [h]), ?_⟩
  rintro k h1 h2 (h3 | h3)
  · rw [h] at h3; omega
  · exact inside_gap (A := A) (x := x) h h1 h2 h3

theorem enc_le_of {A B : List Char} (h : text = enc (A ++ B)) : (enc A).length ≤ text.length := by
  rw [h, enc_append, List.length_append]; omega

theorem next_hit {A B : List Char} {x b : Char} (h : text = enc (A ++ x :: b :: B)) (hp : P x b) :
    IsNext (UpTo P text) text.length (enc A).length (some (enc (A ++ [x])).length) := by
  refine ⟨enc_lt _ _, enc_le_of (B := b :: B) (by simpa using h), .inr ((inside_iff h).mpr hp), ?_⟩
  rintro k h1 h2 (h3 | h3)
  · have := enc_le_of (A := A ++ [x]) (B := b :: B) (by simpa using h); omega
  · exact inside_gap (A := A) (x := x) h h1 h2 h3

theorem next_step {A B : List Char} {x b : Char} (h : text = enc (A ++ x :: b :: B)) (hp : ¬ P x b) {q : Nat}
    (hq : IsNext (UpTo P text) text.length (enc (A ++ [x])).length (some q)) : IsNext (UpTo P text) text.length (enc A).length (some q) := by
  obtain ⟨h1, h2, h3, h4⟩ := hq
  have hlt := enc_lt A x
  refine ⟨by omega, h2, h3, ?_⟩
  intro k hk1 hk2 hk
  rcases Nat.lt_trichotomy k (enc (A ++ [x])).length with hlt | heq | hgt
  · rcases hk with hk | hk
    · omega
    · exact inside_gap (A := A) (x := x) h hk1 hlt hk
  · subst heq
    rcases hk with hk | hk
    · omega
    · exact hp ((inside_iff h).mp hk)
  · exact h4 k hgt hk2 hk

end Word

open Word

namespace WordCursor

open Cursor

/-! ### The loops -/

theorem prevLoop_spec {r : Rope} : ∀ (fuel : Nat) {A B : List Char} {x : Char} {c : WordCursor}, A.length < fuel → r.text = enc (A ++ x :: B) →
    Stands r c (some (enc A).length) → ∃ c' q st, prevLoop fuel c (getWordProperty x) (enc A).length = some (c', q) ∧ Stands r c' st ∧
      IsPrev (From Starts r.text) (enc (A ++ [x])).length (some q) := by
  intro fuel
  induction fuel with
  | zero => intro A B x c h; omega
  | succ fuel ih =>
    intro A B x c hf ht hs
    rcases List.eq_nil_or_concat A with rfl | ⟨A', a, rfl⟩
    · obtain ⟨c', e, h1, _⟩ := prevCodepoint_zero hs
      refine ⟨c', 0, none, ?_, h1, prev_zero (by simpa using ht)⟩
      simp [prevLoop, e]
    · rw [List.concat_eq_append] at *
      have ht' : r.text = enc (A' ++ a :: x :: B) := by rw [ht]; simp
      obtain ⟨c', e, h1⟩ := prevCodepoint_spec ht' hs
      by_cases hp : Starts a x
      · refine ⟨c', _, _, ?_, h1, prev_hit ht' hp⟩
        simp only [prevLoop, e, Option.bind_eq_bind, Option.bind_some]
        rw [if_pos ((isStart_iff a x).mpr hp)]
      · obtain ⟨c2, q, st, e2, h2, h3⟩ := ih (A := A') (B := x :: B) (x := a) (c := c') (by simp at hf; omega) ht' h1
        refine ⟨c2, q, st, ?_, h2, prev_step ht' hp h3⟩
        simp only [prevLoop, e, Option.bind_eq_bind, Option.bind_some]
        rw [if_neg (fun h => hp ((isStart_iff a x).mp h)), h1.2.1, e2]

theorem nextLoop_spec {r : Rope} (hr : r.Balanced) : ∀ (fuel : Nat) {A B : List Char} {x : Char} {c : WordCursor}, B.length < fuel →
    r.text = enc (A ++ x :: B) → Stands r c (some (enc (A ++ [x])).length) →
    ∃ c' q st, nextLoop fuel c (getWordProperty x) (enc (A ++ [x])).length = some (c', q) ∧ Stands r c' st ∧
      IsNext (UpTo Ends r.text) r.text.length (enc A).length (some q) := by
  intro fuel
  induction fuel with
  | zero => intro A B x c h; omega
  | succ fuel ih =>
    intro A B x c hf ht hs
    cases B with
    | nil =>
      have hl : (enc (A ++ [x])).length = r.text.length := by rw [ht]
      obtain ⟨c', e, h1, _⟩ := nextCodepoint_end hr (hl ▸ hs)
      refine ⟨c', _, none, ?_, h1, next_end ht⟩
      simp only [nextLoop, e, Option.bind_eq_bind, Option.bind_some]
    | cons b B =>
      have ht' : r.text = enc ((A ++ [x]) ++ b :: B) := by rw [ht]; simp
      obtain ⟨c', e, h1⟩ := nextCodepoint_spec ht' hs
      by_cases hp : Ends x b
      · refine ⟨c', _, _, ?_, h1, next_hit ht hp⟩
        simp only [nextLoop, e, Option.bind_eq_bind, Option.bind_some]
        rw [if_pos ((isEnd_iff x b).mpr hp)]
      · obtain ⟨c2, q, st, e2, h2, h3⟩ := ih (A := A ++ [x]) (B := B) (x := b) (c := c') (by simp at hf; omega) ht' h1
        refine ⟨c2, q, st, ?_, h2, next_step ht hp h3⟩
        simp only [nextLoop, e, Option.bind_eq_bind, Option.bind_some]
        rw [if_neg (fun h => hp ((isEnd_iff x b).mp h)), h1.2.1, e2]

/-- The relation at which the loop to the start ends, away from the initial position. -/
theorem startLoop_spec {r : Rope} {ib : WordBoundary} {initial : Nat} {P : Char → Char → Prop}
    (hP : ∀ a b, startStops ib false (getWordProperty a) (getWordProperty b) = true ↔ P a b) : ∀ (fuel : Nat) {A B : List Char} {x : Char} {c : WordCursor},
    A.length < fuel → r.text = enc (A ++ x :: B) → (enc A).length ≠ initial → (enc A).length < initial → Stands r c (some (enc A).length) →
    ∃ c' q st, (do let (c, ch) ← Cursor.prevCodepoint c; startLoop ib initial fuel c (enc A).length (ch.map getWordProperty) (some (getWordProperty x)))
        = some (c', q) ∧ Stands r c' st ∧ IsPrev (From P r.text) (enc (A ++ [x])).length (some q) := by
  intro fuel
  induction fuel with
  | zero => intro A B x c h; omega
  | succ fuel ih =>
    intro A B x c hf ht hne hlt hs
    rcases List.eq_nil_or_concat A with rfl | ⟨A', a, rfl⟩
    · obtain ⟨c', e, h1, _⟩ := prevCodepoint_zero hs
      refine ⟨c', 0, none, ?_, h1, prev_zero (by simpa using ht)⟩
      simp [startLoop, e]
    · rw [List.concat_eq_append] at *
      have ht' : r.text = enc (A' ++ a :: x :: B) := by rw [ht]; simp
      obtain ⟨c', e, h1⟩ := prevCodepoint_spec ht' hs
      have hb : ((enc (A' ++ [a])).length == initial) = false := by simpa using hne
      by_cases hp : P a x
      · refine ⟨c', _, _, ?_, h1, prev_hit ht' hp⟩
        simp only [e, Option.bind_eq_bind, Option.bind_some, Option.map_some, startLoop, hb]
        rw [if_pos ((hP a x).mpr hp)]
      · have := enc_lt A' a
        obtain ⟨c2, q, st, e2, h2, h3⟩ := ih (A := A') (B := x :: B) (x := a) (c := c') (by simp at hf; omega) ht' (by omega) (by omega) h1
        refine ⟨c2, q, st, ?_, h2, prev_step ht' hp h3⟩
        simp only [e, Option.bind_eq_bind, Option.bind_some, Option.map_some, startLoop, hb]
        rw [if_neg (fun h => hp ((hP a x).mp h)), h1.2.1]
        exact e2

theorem endLoop_spec {r : Rope} (hr : r.Balanced) {ib : WordBoundary} {initial : Nat} {P : Char → Char → Prop}
    (hP : ∀ a b, endStops ib false (getWordProperty a) (getWordProperty b) = true ↔ P a b) : ∀ (fuel : Nat) {A B : List Char} {x : Char} {c : WordCursor},
    B.length < fuel → r.text = enc (A ++ x :: B) → initial < (enc (A ++ [x])).length → Stands r c (some (enc (A ++ [x])).length) →
    ∃ c' q st, (do let (c, ch) ← Cursor.nextCodepoint c; endLoop ib initial fuel c (enc (A ++ [x])).length (some (getWordProperty x)) (ch.map getWordProperty))
        = some (c', q) ∧ Stands r c' st ∧ IsNext (UpTo P r.text) r.text.length (enc A).length (some q) := by
  intro fuel
  induction fuel with
  | zero => intro A B x c h; omega
  | succ fuel ih =>
    intro A B x c hf ht hlt hs
    cases B with
    | nil =>
      have hl : (enc (A ++ [x])).length = r.text.length := by rw [ht]
      obtain ⟨c', e, h1, _⟩ := nextCodepoint_end hr (hl ▸ hs)
      refine ⟨c', _, none, ?_, h1, next_end ht⟩
      simp only [e, Option.bind_eq_bind, Option.bind_some, Option.map_none, endLoop]
    | cons b B =>
      have ht' : r.text = enc ((A ++ [x]) ++ b :: B) := by rw [ht]; simp
      obtain ⟨c', e, h1⟩ := nextCodepoint_spec ht' hs
      have hb : ((enc (A ++ [x])).length == initial) = false := beq_eq_false_iff_ne.mpr (by omega)
      by_cases hp : P x b
      · refine ⟨c', _, _, ?_, h1, next_hit ht hp⟩
        simp only [e, Option.bind_eq_bind, Option.bind_some, Option.map_some, endLoop, hb]
        rw [if_pos ((hP x b).mpr hp)]
      · have := enc_lt (A ++ [x]) b
        obtain ⟨c2, q, st, e2, h2, h3⟩ := ih (A := A ++ [x]) (B := B) (x := b) (c := c') (by simp at hf; omega) ht' (by omega) h1
        refine ⟨c2, q, st, ?_, h2, next_step ht hp h3⟩
        simp only [e, Option.bind_eq_bind, Option.bind_some, Option.map_some, endLoop, hb]
        rw [if_neg (fun h => hp ((hP x b).mp h)), h1.2.1]
        exact e2

theorem stands_root {r : Rope} {c : WordCursor} {st : Option Nat} (h : Stands r c st) : c.root = r := by
  cases st with
  | none => exact h.1
  | some p => exact h.1

theorem fuel_ok {r : Rope} (hr : r.Balanced) {c : WordCursor} {st : Option Nat} (h : Stands r c st) : c.root.len = r.text.length := by
  rw [stands_root h, Rope.len_eq hr]

/-! ### Finding the start and the end -/

theorem startStops_edge (a b : Char) : startStops .interior false (getWordProperty a) (getWordProperty b) = true ↔ Edge a b := by
  simp only [startStops, WordBoundary.isBoundary]
  exact isBoundary_iff a b

theorem startStops_start {ib : WordBoundary} (h : ib ≠ .interior) (a b : Char) :
    startStops ib false (getWordProperty a) (getWordProperty b) = true ↔ Starts a b := by
  have : ib.isBoundary = true := by simpa [WordBoundary.isBoundary] using h
  simp only [startStops, this]
  exact isStart_iff a b

theorem endStops_edge (a b : Char) : endStops .interior false (getWordProperty a) (getWordProperty b) = true ↔ Edge a b := by
  simp only [endStops, WordBoundary.isBoundary]
  exact isBoundary_iff a b

theorem endStops_end {ib : WordBoundary} (h : ib ≠ .interior) (a b : Char) :
    endStops ib false (getWordProperty a) (getWordProperty b) = true ↔ Ends a b := by
  have : ib.isBoundary = true := by simpa [WordBoundary.isBoundary] using h
  simp only [endStops, this]
  exact isEnd_iff a b

/-- The start found from a place with a character on both sides. -/
theorem selectStart_mid {r : Rope} (hr : r.Balanced) {A B : List Char} {a b : Char} (ht : r.text = enc (A ++ a :: b :: B)) {c : WordCursor}
    (hs : Stands r c (some (enc A).length)) : ∃ c' s st, selectStart (initialBoundary (some (getWordProperty a)) (some (getWordProperty b))) c
      (enc (A ++ [a])).length (some (getWordProperty a)) (some (getWordProperty b)) = some (c', s) ∧ Stands r c' st ∧
      (Enters a b ∨ Blank a b → s = (enc (A ++ [a])).length) ∧
      (Leaves a b → IsPrev (From Starts r.text) (enc (A ++ [a])).length (some s)) ∧
      (¬ Enters a b → ¬ Blank a b → ¬ Leaves a b → IsPrev (From Edge r.text) (enc (A ++ [a])).length (some s)) := by
  have hl : A.length < r.text.length + 1 := by
    have := length_le_enc (A ++ a :: b :: B); rw [← ht, List.length_append] at this; omega
  have hlt := enc_lt A a
  have hpos : c.position = (enc A).length := hs.2.1
  have hf := fuel_ok hr hs
  have hne : ¬ (Enters a b ∧ Leaves a b) := fun h => h.2.2 h.1.2
  have hne2 : ¬ (Blank a b ∧ Leaves a b) := fun h => by
    have := h.2.1; rw [h.1.1, rank_lf] at this; omega
  simp only [selectStart, initialBoundary, Option.isNone_some, Bool.false_eq_true, if_false, hf]
  rw [show r.text.length + 2 = (r.text.length + 1) + 1 from rfl]
  simp only [startLoop, beq_self_eq_true, startStops, if_true]
  rcases initial_eq a b with ⟨h, e⟩ | ⟨h, e⟩ | ⟨h, e⟩ | ⟨h, e⟩
  · rw [e]
    refine ⟨c, _, _, if_pos rfl, hs, fun _ => rfl, fun h' => absurd ⟨h, h'⟩ hne, fun h' => absurd h h'⟩
  · rw [e]
    obtain ⟨c', q, st, e1, h1, h2⟩ := startLoop_spec (r := r) (ib := .stop) (initial := (enc (A ++ [a])).length)
      (startStops_start (by simp)) (r.text.length + 1) hl ht (by omega) hlt hs
    refine ⟨c', q, st, ?_, h1, ?_, fun _ => h2, fun _ _ h' => absurd h h'⟩
    · rw [if_neg (by decide), hpos]; exact e1
    · rintro (h' | h')
      · exact absurd ⟨h', h⟩ hne
      · exact absurd ⟨h', h⟩ hne2
  · rw [e]
    refine ⟨c, _, _, if_pos rfl, hs, fun _ => rfl, fun h' => absurd ⟨h, h'⟩ hne2, fun _ h' => absurd h h'⟩
  · rw [e]
    obtain ⟨c', q, st, e1, h1, h2⟩ := startLoop_spec (r := r) (ib := .interior) (initial := (enc (A ++ [a])).length)
      startStops_edge (r.text.length + 1) hl ht (by omega) hlt hs
    refine ⟨c', q, st, ?_, h1, ?_, fun h' => absurd h' h.2.1, fun _ _ _ => h2⟩
    · rw [if_neg (by decide), hpos]; exact e1
    · rintro (h' | h')
      · exact absurd h' h.1
      · exact absurd h' h.2.2

/-- The end found from a place with a character on both sides. -/
theorem selectEnd_mid {r : Rope} (hr : r.Balanced) {A B : List Char} {a b : Char} (ht : r.text = enc (A ++ a :: b :: B)) {c : WordCursor}
    (hs : Stands r c (some (enc (A ++ [a])).length)) : ∃ c' s st, selectEnd (initialBoundary (some (getWordProperty a)) (some (getWordProperty b))) c
      (enc (A ++ [a])).length (some (getWordProperty a)) (some (getWordProperty b)) = some (c', s) ∧ Stands r c' st ∧
      (Leaves a b ∨ Blank a b → s = (enc (A ++ [a])).length) ∧
      (Enters a b → IsNext (UpTo Ends r.text) r.text.length (enc (A ++ [a])).length (some s)) ∧
      (¬ Enters a b → ¬ Blank a b → ¬ Leaves a b → IsNext (UpTo Edge r.text) r.text.length (enc (A ++ [a])).length (some s)) := by
  have hl : B.length < r.text.length := by
    have := length_le_enc (A ++ a :: b :: B); rw [← ht, List.length_append] at this; simp at this; omega
  have ht' : r.text = enc ((A ++ [a]) ++ b :: B) := by rw [ht]; simp
  have hlt := enc_lt (A ++ [a]) b
  have hpos : c.position = (enc (A ++ [a])).length := hs.2.1
  have hf := fuel_ok hr hs
  have hne : ¬ (Enters a b ∧ Leaves a b) := fun h => h.2.2 h.1.2
  have hne2 : ¬ (Blank a b ∧ Enters a b) := fun h => by
    have := h.2.2; rw [h.1.2, rank_lf] at this; omega
  obtain ⟨c1, e0, hs1⟩ := nextCodepoint_spec ht' hs
  have hpos1 : c1.position = (enc (A ++ [a] ++ [b])).length := hs1.2.1
  simp only [selectEnd, initialBoundary, Option.isNone_some, Bool.false_eq_true, if_false, hf]
  rw [show r.text.length + 2 = (r.text.length + 1) + 1 from rfl]
  simp only [endLoop, beq_self_eq_true, endStops, if_true]
  rcases initial_eq a b with ⟨h, e⟩ | ⟨h, e⟩ | ⟨h, e⟩ | ⟨h, e⟩
  · rw [e]
    obtain ⟨c', q, st, e1, h1, h2⟩ := endLoop_spec (r := r) hr (ib := .start) (initial := (enc (A ++ [a])).length)
      (endStops_end (by simp)) r.text.length hl ht' hlt hs1
    refine ⟨c', q, st, ?_, h1, ?_, fun _ => h2, fun h' => absurd h h'⟩
    · rw [if_neg (by decide)]
      simp only [hpos, e0, Option.bind_eq_bind, Option.bind_some, Option.map_some, endLoop, beq_self_eq_true, endStops, if_true]
      rw [if_neg (by decide), hpos1]; exact e1
    · rintro (h' | h')
      · exact absurd ⟨h, h'⟩ hne
      · exact absurd ⟨h', h⟩ hne2
  · rw [e]
    refine ⟨c, _, _, if_pos rfl, hs, fun _ => rfl, fun h' => absurd ⟨h', h⟩ hne, fun _ _ h' => absurd h h'⟩
  · rw [e]
    refine ⟨c, _, _, if_pos rfl, hs, fun _ => rfl, fun h' => absurd ⟨h, h'⟩ hne2, fun _ h' => absurd h h'⟩
  · rw [e]
    obtain ⟨c', q, st, e1, h1, h2⟩ := endLoop_spec (r := r) hr (ib := .interior) (initial := (enc (A ++ [a])).length)
      endStops_edge r.text.length hl ht' hlt hs1
    refine ⟨c', q, st, ?_, h1, ?_, fun h' => absurd h' h.1, fun _ _ _ => h2⟩
    · rw [if_neg (by decide)]
      simp only [hpos, e0, Option.bind_eq_bind, Option.bind_some, Option.map_some, endLoop, beq_self_eq_true, endStops, if_true]
      rw [if_neg (by decide), hpos1]; exact e1
    · rintro (h' | h')
      · exact absurd h' h.2.1
      · exact absurd h' h.2.2

theorem prevCodepoint_lost {r : Rope} {c : WordCursor} (h : Stands r c none) : ∃ c', c.prevCodepoint = some (c', none) ∧ Stands r c' none := by
  obtain ⟨c', e, h'⟩ := call_spec h .prevCodepointLost
  exact ⟨c', prevCodepoint_of_call e, h'⟩

theorem nextCodepoint_lost {r : Rope} {c : WordCursor} (h : Stands r c none) : ∃ c', c.nextCodepoint = some (c', none) ∧ Stands r c' none := by
  obtain ⟨c', e, h'⟩ := call_spec h .nextCodepointLost
  exact ⟨c', nextCodepoint_of_call e, h'⟩

end WordCursor

open Cursor

/-! ### The properties -/

theorem boundary_split {r : Rope} (hr : r.Balanced) {p : Nat} (hp : CharBoundary r.text p) : ∃ A B, r.text = enc (A ++ B) ∧ p = (enc A).length := by
  obtain ⟨a, b, h1, h2⟩ := hp
  exact ⟨a, b, by rw [enc_append]; exact h1, h2⟩

theorem IsPrev.starts_boundary {P : Char → Char → Prop} {text : List UInt8} {p q : Nat} (hu : ∃ cs, text = enc cs) (h : IsPrev (From P text) p (some q)) :
    CharBoundary text q := by
  obtain ⟨cs, hu⟩ := hu
  rcases h.2.1 with h | h
  · exact ⟨[], cs, by simpa using hu, by simp [h]⟩
  · exact (inside_boundary h).1

theorem IsNext.ends_boundary {P : Char → Char → Prop} {text : List UInt8} {p q : Nat} (hu : ∃ cs, text = enc cs)
    (h : IsNext (UpTo P text) text.length p (some q)) : CharBoundary text q := by
  obtain ⟨cs, hu⟩ := hu
  rcases h.2.2.1 with h | h
  · exact ⟨cs, [], by simpa using hu, by rw [h, hu]⟩
  · exact (inside_boundary h).1

theorem utf8_enc {r : Rope} (hr : r.Balanced) : ∃ cs, r.text = enc cs := by
  obtain ⟨cs, h⟩ := Rope.text_utf8 hr
  exact ⟨cs, h⟩

/-- Going back from the start of the text finds nothing. -/
theorem C45_prev_start {r : Rope} {c : WordCursor} (hc : Stands r c (some 0)) :
    ∃ c', WordCursor.prevBoundary c = some (c', none) ∧ Stands r c' none := by
  obtain ⟨c', e, h, _⟩ := prevCodepoint_zero hc
  exact ⟨c', by simp [WordCursor.prevBoundary, e], h⟩

/-- Going forward from the end of the text finds nothing. -/
theorem C45_next_end {r : Rope} (hr : r.Balanced) {c : WordCursor} (hc : Stands r c (some r.text.length)) :
    ∃ c', WordCursor.nextBoundary c = some (c', none) ∧ Stands r c' none := by
  obtain ⟨c', e, h, _⟩ := nextCodepoint_end hr hc
  exact ⟨c', by simp [WordCursor.nextBoundary, e], h⟩

/-- Going back from anywhere else stops at the nearest start of a word before, on a boundary of
the text, and leaves the cursor there. -/
theorem C45_prev {r : Rope} (hr : r.Balanced) {c : WordCursor} {p : Nat} (hp : CharBoundary r.text p) (h0 : 0 < p) (hc : Stands r c (some p)) :
    ∃ c' q, WordCursor.prevBoundary c = some (c', some q) ∧ Stands r c' (some q) ∧ IsPrev (From Starts r.text) p (some q) ∧ q < p ∧
      CharBoundary r.text q := by
  obtain ⟨A, B, ht, rfl⟩ := boundary_split hr hp
  rcases List.eq_nil_or_concat A with rfl | ⟨A', x, rfl⟩
  · simp at h0
  · rw [List.concat_eq_append] at *
    have ht' : r.text = enc (A' ++ x :: B) := by rw [ht]; simp
    obtain ⟨c1, e1, h1⟩ := prevCodepoint_spec ht' hc
    have hl : A'.length < c1.root.len + 1 := by
      have := length_le_enc (A' ++ x :: B)
      rw [← ht', List.length_append] at this
      rw [WordCursor.fuel_ok hr h1]; omega
    obtain ⟨c2, q, st, e2, h2, h3⟩ := WordCursor.prevLoop_spec (c1.root.len + 1) hl ht' h1
    have hq : q ≤ r.text.length := by
      have := h3.1; have := enc_le_of (A := A' ++ [x]) (B := B) ht; omega
    obtain ⟨c3, e3, h4⟩ := set_stands h2 hq
    refine ⟨c3, q, ?_, h4, h3, h3.1, h3.starts_boundary (utf8_enc hr)⟩
    have hpos : c1.position = (enc A').length := h1.2.1
    simp only [WordCursor.prevBoundary, e1, Option.bind_eq_bind, Option.bind_some, hpos, e2, e3]
    rfl

/-- Going forward from anywhere else stops at the nearest end of a word after. -/
theorem C45_next {r : Rope} (hr : r.Balanced) {c : WordCursor} {p : Nat} (hp : CharBoundary r.text p) (h0 : p < r.text.length)
    (hc : Stands r c (some p)) :
    ∃ c' q, WordCursor.nextBoundary c = some (c', some q) ∧ Stands r c' (some q) ∧ IsNext (UpTo Ends r.text) r.text.length p (some q) ∧ p < q ∧
      CharBoundary r.text q := by
  obtain ⟨A, B, ht, rfl⟩ := boundary_split hr hp
  cases B with
  | nil => rw [ht] at h0; simp at h0
  | cons x B =>
    obtain ⟨c1, e1, h1⟩ := nextCodepoint_spec ht hc
    have hl : B.length < c1.root.len + 1 := by
      have := length_le_enc (A ++ x :: B)
      rw [← ht, List.length_append] at this
      simp at this
      rw [WordCursor.fuel_ok hr h1]; omega
    obtain ⟨c2, q, st, e2, h2, h3⟩ := WordCursor.nextLoop_spec hr (c1.root.len + 1) hl ht h1
    obtain ⟨c3, e3, h4⟩ := set_stands h2 h3.2.1
    refine ⟨c3, q, ?_, h4, h3, h3.1, h3.ends_boundary (utf8_enc hr)⟩
    have hpos : c1.position = (enc (A ++ [x])).length := h1.2.1
    simp only [WordCursor.nextBoundary, e1, Option.bind_eq_bind, Option.bind_some, hpos, e2, e3]
    rfl

/-- Selecting a word: both ends are as said above, and the cursor is left at the end. -/
theorem C45_select {r : Rope} (hr : r.Balanced) {c : WordCursor} {p : Nat} (hp : CharBoundary r.text p) (hc : Stands r c (some p)) :
    ∃ c' s e, WordCursor.selectWord c = some (c', s, e) ∧ Stands r c' (some e) ∧ SelectStart r.text p s ∧ SelectEnd r.text p e := by
  obtain ⟨A, B, ht, rfl⟩ := boundary_split hr hp
  have hle : (enc A).length ≤ r.text.length := enc_le_of ht
  have hpos : c.position = (enc A).length := hc.2.1
  rcases List.eq_nil_or_concat A with rfl | ⟨A', a, rfl⟩
  · cases B with
    | nil =>
      have hn : r.text.length = 0 := by rw [ht]; rfl
      have hc0 : Stands r c (some r.text.length) := by rw [hn]; exact hc
      obtain ⟨c1, e1, h1, _⟩ := nextCodepoint_end hr hc0
      obtain ⟨c2, e2, h2⟩ := set_stands h1 (p := 0) (by omega)
      obtain ⟨c3, e3, h3, hp3⟩ := prevCodepoint_zero h2
      obtain ⟨c4, e4, h4⟩ := WordCursor.prevCodepoint_lost h3
      obtain ⟨c5, e5, h5⟩ := set_stands h4 (p := 0) (by omega)
      obtain ⟨c6, e6, h6, hp6⟩ := nextCodepoint_end hr (hn ▸ h5)
      obtain ⟨c7, e7, h7⟩ := WordCursor.nextCodepoint_lost h6
      obtain ⟨c8, e8, h8⟩ := set_stands h7 (p := 0) (by omega)
      have hpos' : c.position = 0 := hpos
      refine ⟨c8, 0, 0, ?_, h8, ⟨fun _ => rfl, fun h => absurd h (Nat.lt_irrefl 0), ?_⟩, ⟨fun _ => rfl, fun _ h => ?_, ?_⟩⟩
      · simp only [WordCursor.selectWord, e1, e2, e3, e4, e5, e6, e7, e8, hpos', Option.bind_eq_bind, Option.bind_some, Option.map_none,
          WordCursor.selectStart, WordCursor.selectEnd, Option.isNone_none, if_true, WordCursor.startLoop, WordCursor.endLoop, hp3, hp6, hn]
        rfl
      · intro as a b bs h
        rw [ht] at h
        have := enc_pos (a := as ++ a :: b :: bs) (by simp)
        rw [← h] at this
        simp at this
      · simp [hn] at h
      · intro as a b bs h
        rw [ht] at h
        have := enc_pos (a := as ++ a :: b :: bs) (by simp)
        rw [← h] at this
        simp at this
    | cons b B =>
      obtain ⟨c1, e1, h1⟩ := nextCodepoint_spec ht hc
      obtain ⟨c2, e2, h2⟩ := set_stands h1 (p := 0) (by omega)
      obtain ⟨c3, e3, h3, hp3⟩ := prevCodepoint_zero h2
      obtain ⟨c5, e5, h5⟩ := set_stands h3 (p := 0) (by omega)
      obtain ⟨c6, e6, h6⟩ := nextCodepoint_spec ht (c := c5) h5
      have hl : B.length < r.text.length + 2 := by
        have := length_le_enc (b :: B); rw [← List.nil_append (b :: B), ← ht] at this; simp at this; omega
      obtain ⟨c7, q, st, e7, h7, h8⟩ := WordCursor.endLoop_spec (r := r) hr (ib := .both) (initial := 0) (WordCursor.endStops_end (by simp))
        (r.text.length + 2) hl ht (enc_pos (by simp)) h6
      obtain ⟨c8, e8, h9⟩ := set_stands h7 h8.2.1
      have hpos' : c.position = 0 := hpos
      have hpos6 : c6.position = (enc ([] ++ [b])).length := h6.2.1
      have hno : ∀ (as : List Char) (a : Char), 0 ≠ (enc (as ++ [a])).length := fun as a h => by
        have := enc_pos (a := as ++ [a]) (by simp); omega
      refine ⟨c8, 0, q, ?_, h9, ⟨fun _ => rfl, fun h => absurd h (Nat.lt_irrefl 0), ?_⟩, ⟨fun h => ?_, fun _ _ => h8, ?_⟩⟩
      · simp only [Option.bind_eq_bind] at e7
        simp only [WordCursor.selectWord, e1, e2, e3, e5, e6, hpos', Option.bind_eq_bind, Option.bind_some, Option.map_none, Option.map_some,
          WordCursor.selectStart, WordCursor.selectEnd, Option.isNone_none, Option.isNone_some, Bool.false_eq_true, if_false, if_true, WordCursor.startLoop,
          WordCursor.initialBoundary, hpos6]
        cases h10 : Cursor.nextCodepoint c6 with
        | none => rw [h10] at e7; simp at e7
        | some y =>
          obtain ⟨c9, ch⟩ := y
          rw [h10] at e7
          simp only [Option.bind_some] at e7 ⊢
          have h11 : c9.root.len = r.text.length := by
            cases B with
            | nil =>
              obtain ⟨c10, e10, h10', _⟩ := nextCodepoint_end hr (c := c6) (by rw [ht]; exact h6)
              rw [h10] at e10; injection e10 with e10; injection e10 with e10; subst e10
              exact WordCursor.fuel_ok hr h10'
            | cons b' B' =>
              obtain ⟨c10, e10, h10'⟩ := nextCodepoint_spec (A := [b]) (B := B') (ch := b') (by simpa using ht) h6
              rw [h10] at e10; injection e10 with e10; injection e10 with e10; subst e10
              exact WordCursor.fuel_ok hr h10'
          rw [h11, e7]
          simp only [Option.bind_some, e8]
          rfl
      · intro as a b bs _ h; exact absurd h (hno as a)
      · exfalso
        have := enc_pos (a := [] ++ b :: B) (by simp)
        rw [← ht, ← h] at this; simp at this
      · intro as a b bs _ h; exact absurd h (hno as a)
  · rw [List.concat_eq_append] at *
    cases B with
    | nil =>
      have hn : r.text.length = (enc (A' ++ [a])).length := by rw [ht]; simp
      have ht1 : r.text = enc (A' ++ a :: []) := by rw [ht]; simp
      obtain ⟨c1, e1, h1, _⟩ := nextCodepoint_end hr (hn ▸ hc)
      obtain ⟨c2, e2, h2⟩ := set_stands h1 hle
      obtain ⟨c3, e3, h3⟩ := prevCodepoint_spec ht1 h2
      have hl : A'.length < r.text.length + 2 := by
        have := length_le_enc (A' ++ a :: []); rw [← ht1] at this; simp at this; omega
      obtain ⟨c4, q, st, e4, h4, h5⟩ := WordCursor.startLoop_spec (r := r) (ib := .both) (initial := (enc (A' ++ [a])).length)
        (WordCursor.startStops_start (by simp)) (r.text.length + 2) hl ht1 (Nat.ne_of_lt (enc_lt A' a)) (enc_lt A' a) h3
      obtain ⟨c5, e5, h6⟩ := set_stands h4 hle
      obtain ⟨c6, e6, h7⟩ := set_stands h6 hle
      have hpos3 : c3.position = (enc A').length := h3.2.1
      have hp0 : 0 < (enc (A' ++ [a])).length := enc_pos (by simp)
      have hno : ∀ (as : List Char) (a' b : Char) (bs : List Char), r.text = enc (as ++ a' :: b :: bs) → (enc (A' ++ [a])).length ≠ (enc (as ++ [a'])).length := by
        intro as a' b bs h h'
        have := (inside_boundary (P := fun _ _ => True) ((inside_iff h).mpr trivial)).2.2
        omega
      refine ⟨c6, q, _, ?_, h7, ⟨fun h => by omega, fun _ _ => h5, ?_⟩, ⟨fun _ => rfl, fun h => by omega, ?_⟩⟩
      · simp only [Option.bind_eq_bind] at e4
        simp only [WordCursor.selectWord, e1, e2, e3, hpos, Option.bind_eq_bind, Option.bind_some, Option.map_none, Option.map_some,
          WordCursor.selectStart, WordCursor.selectEnd, Option.isNone_none, Option.isNone_some, Bool.false_eq_true, if_false, if_true,
          WordCursor.initialBoundary, hpos3]
        cases h10 : Cursor.prevCodepoint c3 with
        | none => rw [h10] at e4; simp at e4
        | some y =>
          obtain ⟨c9, ch⟩ := y
          rw [h10] at e4
          simp only [Option.bind_some] at e4 ⊢
          have h11 : c9.root.len = r.text.length := by
            rcases List.eq_nil_or_concat A' with rfl | ⟨A'', a', rfl⟩
            · obtain ⟨c10, e10, h10', _⟩ := prevCodepoint_zero h3
              rw [h10] at e10; injection e10 with e10; injection e10 with e10; subst e10
              exact WordCursor.fuel_ok hr h10'
            · rw [List.concat_eq_append] at *
              obtain ⟨c10, e10, h10'⟩ := prevCodepoint_spec (A := A'') (B := [a]) (ch := a') (by rw [ht]; simp) h3
              rw [h10] at e10; injection e10 with e10; injection e10 with e10; subst e10
              exact WordCursor.fuel_ok hr h10'
          rw [h11, e4]
          simp only [Option.bind_some, e5, WordCursor.endLoop, e6]
          rfl
      · intro as a' b bs h h'; exact absurd h' (hno as a' b bs h)
      · intro as a' b bs h h'; exact absurd h' (hno as a' b bs h)
    | cons b B =>
      have ht1 : r.text = enc (A' ++ a :: b :: B) := by rw [ht]; simp
      obtain ⟨c1, e1, h1⟩ := nextCodepoint_spec ht hc
      obtain ⟨c2, e2, h2⟩ := set_stands h1 hle
      obtain ⟨c3, e3, h3⟩ := prevCodepoint_spec ht1 h2
      obtain ⟨c4, s, st, e4, h4, hs⟩ := WordCursor.selectStart_mid hr ht1 h3
      obtain ⟨c5, e5, h5⟩ := set_stands h4 hle
      obtain ⟨c6, e, st', e6, h6, he⟩ := WordCursor.selectEnd_mid hr ht1 h5
      have hp0 : 0 < (enc (A' ++ [a])).length := enc_pos (by simp)
      have hpn := (inside_boundary (P := fun _ _ => True) ((inside_iff ht1).mpr trivial)).2.2
      have huniq : ∀ (as : List Char) (a' b' : Char) (bs : List Char), r.text = enc (as ++ a' :: b' :: bs) → (enc (A' ++ [a])).length = (enc (as ++ [a'])).length →
          a' = a ∧ b' = b := by
        intro as a' b' bs h h'
        have := (inside_iff (P := fun x y => x = a ∧ y = b) h).mp (h' ▸ (inside_iff ht1).mpr ⟨rfl, rfl⟩)
        exact this
      have hee : e ≤ r.text.length := by
        rcases initial_eq a b with ⟨h, _⟩ | ⟨h, _⟩ | ⟨h, _⟩ | ⟨h, _⟩
        · exact (he.2.1 h).2.1
        · rw [he.1 (.inl h)]; exact hle
        · rw [he.1 (.inr h)]; exact hle
        · exact (he.2.2 h.1 h.2.2 h.2.1).2.1
      obtain ⟨c7, e7, h7⟩ := set_stands h6 hee
      refine ⟨c7, s, e, ?_, h7, ⟨fun h => by omega, fun _ h => by omega, ?_⟩, ⟨fun h => by omega, fun h => by omega, ?_⟩⟩
      · simp only [WordCursor.selectWord, e1, e2, e3, e4, e5, e6, e7, hpos, Option.bind_eq_bind, Option.bind_some, Option.map_some]
        rfl
      · intro as a' b' bs h h'
        obtain ⟨rfl, rfl⟩ := huniq as a' b' bs h h'
        exact hs
      · intro as a' b' bs h h'
        obtain ⟨rfl, rfl⟩ := huniq as a' b' bs h h'
        exact he

namespace WordCursor

/-- Going forward by word again and again, until there is nothing more. -/
def visitNext : Nat → WordCursor → Option (List Nat)
  | 0, _ => none
  | fuel + 1, c => do
    let (c, r) ← nextBoundary c
    match r with
    | none => return []
    | some q => return q :: (← visitNext fuel c)

/-- Going back by word again and again, until there is nothing more. -/
def visitPrev : Nat → WordCursor → Option (List Nat)
  | 0, _ => none
  | fuel + 1, c => do
    let (c, r) ← prevBoundary c
    match r with
    | none => return []
    | some q => return q :: (← visitPrev fuel c)

end WordCursor

/-- Going forward by word visits every end of a word up to the end of the text, in order, and
nothing else. -/
theorem C45_visits_ends {r : Rope} (hr : r.Balanced) : ∀ (fuel : Nat) {c : WordCursor} {p : Nat}, CharBoundary r.text p → Stands r c (some p) →
    p ≤ r.text.length → r.text.length - p < fuel → ∃ l, WordCursor.visitNext fuel c = some l ∧ l.Pairwise (· < ·) ∧
      ∀ k, k ∈ l ↔ p < k ∧ k ≤ r.text.length ∧ UpTo Ends r.text k := by
  intro fuel
  induction fuel with
  | zero => intro c p _ _ _ h; omega
  | succ fuel ih =>
    intro c p hp hc hle hf
    by_cases h0 : p < r.text.length
    · obtain ⟨c1, q, e1, h1, h2, h3, h4⟩ := C45_next hr hp h0 hc
      obtain ⟨l, e2, h5, h6⟩ := ih h4 h1 h2.2.1 (by have := h2.2.1; omega)
      refine ⟨q :: l, by simp [WordCursor.visitNext, e1, e2], List.pairwise_cons.mpr ⟨fun k hk => ((h6 k).mp hk).1, h5⟩, ?_⟩
      intro k
      rw [List.mem_cons, h6]
      constructor
      · rintro (rfl | ⟨hk1, hk2, hk3⟩)
        · exact ⟨h3, h2.2.1, h2.2.2.1⟩
        · exact ⟨by omega, hk2, hk3⟩
      · rintro ⟨hk1, hk2, hk3⟩
        rcases Nat.lt_trichotomy k q with h | h | h
        · exact absurd hk3 (h2.2.2.2 k hk1 h)
        · exact .inl h
        · exact .inr ⟨h, hk2, hk3⟩
    · have : p = r.text.length := by omega
      subst this
      obtain ⟨c1, e1, _⟩ := C45_next_end hr hc
      exact ⟨[], by simp [WordCursor.visitNext, e1], .nil, fun k => by simp; omega⟩

/-- Going back by word visits every start of a word down to the start of the text, in order,
and nothing else. -/
theorem C45_visits_starts {r : Rope} (hr : r.Balanced) : ∀ (fuel : Nat) {c : WordCursor} {p : Nat}, CharBoundary r.text p → Stands r c (some p) →
    p < fuel → ∃ l, WordCursor.visitPrev fuel c = some l ∧ l.Pairwise (· > ·) ∧ ∀ k, k ∈ l ↔ k < p ∧ From Starts r.text k := by
  intro fuel
  induction fuel with
  | zero => intro c p _ _ h; omega
  | succ fuel ih =>
    intro c p hp hc hf
    by_cases h0 : 0 < p
    · obtain ⟨c1, q, e1, h1, h2, h3, h4⟩ := C45_prev hr hp h0 hc
      obtain ⟨l, e2, h5, h6⟩ := ih h4 h1 (by omega)
      refine ⟨q :: l, by simp [WordCursor.visitPrev, e1, e2], List.pairwise_cons.mpr ⟨fun k hk => ((h6 k).mp hk).1, h5⟩, ?_⟩
      intro k
      rw [List.mem_cons, h6]
      constructor
      · rintro (rfl | ⟨hk1, hk2⟩)
        · exact ⟨h3, h2.2.1⟩
        · exact ⟨by omega, hk2⟩
      · rintro ⟨hk1, hk2⟩
        rcases Nat.lt_trichotomy k q with h | h | h
        · exact .inr ⟨h, hk2⟩
        · exact .inl h
        · exact absurd hk2 (h2.2.2 k h hk1)
    · have : p = 0 := by omega
      subst this
      obtain ⟨c1, e1, _⟩ := C45_prev_start hc
      exact ⟨[], by simp [WordCursor.visitPrev, e1], .nil, fun k => by simp⟩

/-! ### Whole words -/

theorem run_inside {text : List UInt8} {as w bs : List Char} (ht : text = enc (as ++ w ++ bs)) (hw : ∀ c ∈ w, rank c = 2) {k : Nat}
    (h1 : (enc as).length < k) (h2 : k < (enc (as ++ w)).length) : ¬ Inside Edge text k := by
  rintro ⟨xs, a, b, ys, e, rfl, hp⟩
  rw [ht] at e
  have e' := enc_inj e
  have e1 : enc as ++ enc (w ++ bs) = enc (xs ++ [a]) ++ enc (b :: ys) := by rw [← enc_append, ← enc_append]; simpa using e
  have e2 : enc (xs ++ [a]) ++ enc (b :: ys) = enc (as ++ w) ++ enc bs := by rw [← enc_append, ← enc_append]; simpa using e.symm
  obtain ⟨u, hu1, hu2⟩ := cut_prefix e1 (by omega)
  obtain ⟨v, hv1, hv2⟩ := cut_prefix e2 (by omega)
  rw [hu1, List.append_assoc] at hv1
  have hw' : w = u ++ v := List.append_cancel_left hv1
  have hau : a ∈ u := by
    rcases List.eq_nil_or_concat u with rfl | ⟨u', z, rfl⟩
    · rw [hu1] at h1; simp at h1
    · rw [List.concat_eq_append, ← List.append_assoc] at hu1
      have := (List.append_inj' hu1 rfl).2
      simp at this
      rw [this]; simp
  have hbv : b ∈ v := by
    cases v with
    | nil => rw [hu1] at h2; rw [hw'] at h2; simp at h2
    | cons z v => injection hv2 with h; rw [h]; simp
  have ha := hw a (by rw [hw']; simp [hau])
  have hb := hw b (by rw [hw']; simp [hbv])
  have hna : a ≠ '\n' := by rintro rfl; simp [rank_lf] at ha
  have hnb : b ≠ '\n' := by rintro rfl; simp [rank_lf] at hb
  rcases hp with h | h <;> rcases h with h | h | h
  · exact hna h
  · exact hnb h
  · omega
  · exact hna h
  · exact hnb h
  · omega

/-- Selecting from any place in or at an end of a whole word gives exactly the word. -/
theorem C45_select_word {r : Rope} (hr : r.Balanced) {as w bs : List Char} (ht : r.text = enc (as ++ w ++ bs)) (hne : w ≠ [])
    (hw : ∀ c ∈ w, rank c = 2) (has : ∀ a, as.getLast? = some a → rank a ≠ 2) (hbs : ∀ b, bs.head? = some b → rank b ≠ 2)
    {c : WordCursor} {u v : List Char} (hu : w = u ++ v) (hc : Stands r c (some (enc (as ++ u)).length)) :
    ∃ c', WordCursor.selectWord c = some (c', (enc as).length, (enc (as ++ w)).length) ∧ Stands r c' (some (enc (as ++ w)).length) := by
  have hp : CharBoundary r.text (enc (as ++ u)).length := by
    rw [ht]; exact boundary_enc.mpr ⟨as ++ u, v ++ bs, by simp [hu], rfl⟩
  obtain ⟨c', s, e, e1, h1, hs, he⟩ := C45_select hr hp hc
  have hlen : (enc (as ++ w)).length = (enc (as ++ u)).length + (enc v).length := by
    rw [hu, ← List.append_assoc, enc_append (as ++ u), List.length_append]
  have hlen2 : (enc (as ++ u)).length = (enc as).length + (enc u).length := by rw [enc_append, List.length_append]
  have hlen3 : r.text.length = (enc (as ++ w)).length + (enc bs).length := by rw [ht, enc_append (as ++ w), List.length_append]
  have hsplit : ∀ P, (∀ a b, P a b → Edge a b) → ∀ k, (enc as).length < k → k < (enc (as ++ w)).length → ¬ Inside P r.text k := by
    intro P hP k hk1 hk2 ⟨xs, a, b, ys, h1, h2, h3⟩
    exact run_inside ht hw hk1 hk2 ⟨xs, a, b, ys, h1, h2, hP a b h3⟩
  have hstart : ∀ P, (∀ a b, P a b → Edge a b) → (∀ a b, rank a < rank b → P a b) → (enc as).length < (enc (as ++ u)).length →
      IsPrev (From P r.text) (enc (as ++ u)).length (some (enc as).length) := by
    intro P hP hP2 hlt
    refine ⟨hlt, ?_, ?_⟩
    · rcases List.eq_nil_or_concat as with rfl | ⟨as', z, rfl⟩
      · exact .inl (by simp)
      · rw [List.concat_eq_append] at *
        obtain ⟨y, w', rfl⟩ : ∃ y w', w = y :: w' := by
          cases w with
          | nil => exact absurd rfl hne
          | cons y w' => exact ⟨y, w', rfl⟩
        refine .inr ⟨as', z, y, w' ++ bs, by rw [ht]; simp, rfl, hP2 z y ?_⟩
        have hy := hw y (by simp)
        have hz := has z (by simp)
        have := rank_le z
        omega
    · rintro k hk1 hk2 (h | h)
      · omega
      · exact hsplit P hP k hk1 (by omega) h
  have hstop : ∀ P, (∀ a b, P a b → Edge a b) → (∀ a b, rank b < rank a → P a b) → (enc (as ++ u)).length < (enc (as ++ w)).length →
      IsNext (UpTo P r.text) r.text.length (enc (as ++ u)).length (some (enc (as ++ w)).length) := by
    intro P hP hP2 hlt
    refine ⟨hlt, by omega, ?_, ?_⟩
    · cases bs with
      | nil => exact .inl (by rw [ht]; simp)
      | cons z bs' =>
        rcases List.eq_nil_or_concat w with h | ⟨w', y, h⟩
        · exact absurd h hne
        · rw [List.concat_eq_append] at h
          refine .inr ⟨as ++ w', y, z, bs', by rw [ht, h]; simp, by rw [h]; simp, hP2 y z ?_⟩
          have hy := hw y (by rw [h]; simp)
          have hz := hbs z (by simp)
          have := rank_le z
          omega
    · rintro k hk1 hk2 (h | h)
      · omega
      · exact hsplit P hP k (by omega) hk2 h
  have hS : ∀ a b, Starts a b → Edge a b := fun _ _ h => .inl h
  have hE : ∀ a b, Ends a b → Edge a b := fun _ _ h => .inr h
  have hS2 : ∀ a b, rank a < rank b → Starts a b := fun _ _ h => .inr (.inr h)
  have hE2 : ∀ a b, rank b < rank a → Ends a b := fun _ _ h => .inr (.inr h)
  have hkey : s = (enc as).length ∧ e = (enc (as ++ w)).length := by
    rcases List.eq_nil_or_concat u with rfl | ⟨u', x, rfl⟩
    · -- at the start of the word
      simp only [List.nil_append] at hu
      subst hu
      obtain ⟨y, v', hv⟩ : ∃ y v', w = y :: v' := by
        cases w with
        | nil => exact absurd rfl hne
        | cons y w' => exact ⟨y, w', rfl⟩
      have hlt : (enc (as ++ [])).length < (enc (as ++ w)).length := by
        have := enc_pos hne; omega
      rcases List.eq_nil_or_concat as with rfl | ⟨as', z, rfl⟩
      · exact ⟨hs.1 rfl, (he.2.1 rfl (by
          have := enc_pos hne
          have h0 : (enc []).length = 0 := rfl
          simp only [List.nil_append] at hlen3 ⊢
          omega)).unique (hstop Ends hE hE2 hlt)⟩
      · rw [List.concat_eq_append] at *
        have hent : Enters z y := ⟨has z (by simp), hw y (by simp [hv])⟩
        have htt : r.text = enc (as' ++ z :: y :: (v' ++ bs)) := by rw [ht, hv]; simp
        refine ⟨?_, ((he.2.2 as' z y _ htt (by simp)).2.1 hent).unique (hstop Ends hE hE2 hlt)⟩
        rw [(hs.2.2 as' z y _ htt (by simp)).1 (.inl hent)]
        simp
    · rw [List.concat_eq_append] at *
      have hx : rank x = 2 := hw x (by rw [hu]; simp)
      have hlt : (enc as).length < (enc (as ++ (u' ++ [x]))).length := by
        have := enc_pos (a := u' ++ [x]) (by simp); omega
      cases v with
      | cons y v' =>
        have hy : rank y = 2 := hw y (by rw [hu]; simp)
        have htt : r.text = enc ((as ++ u') ++ x :: y :: (v' ++ bs)) := by rw [ht, hu]; simp
        have hpp : (enc (as ++ (u' ++ [x]))).length = (enc ((as ++ u') ++ [x])).length := by simp
        have h3 : ¬ Enters x y := fun h => h.1 hx
        have h4 : ¬ Blank x y := by rintro ⟨rfl, _⟩; simp [rank_lf] at hx
        have h5 : ¬ Leaves x y := fun h => h.2 hy
        have hlt2 : (enc (as ++ (u' ++ [x]))).length < (enc (as ++ w)).length := by
          have := enc_pos (a := y :: v') (by simp); omega
        exact ⟨((hs.2.2 _ x y _ htt hpp).2.2 h3 h4 h5).unique (hstart Edge (fun _ _ h => h) (fun a b h => .inl (hS2 a b h)) hlt),
          ((he.2.2 _ x y _ htt hpp).2.2 h3 h4 h5).unique (hstop Edge (fun _ _ h => h) (fun a b h => .inr (hE2 a b h)) hlt2)⟩
      | nil =>
        simp only [List.append_nil] at hu
        subst hu
        cases bs with
        | nil =>
          have hn : (enc (as ++ (u' ++ [x]))).length = r.text.length := by rw [ht]; simp
          exact ⟨(hs.2.1 (by omega) hn).unique (hstart Starts hS hS2 hlt), he.1 hn⟩
        | cons z bs' =>
          have htt : r.text = enc ((as ++ u') ++ x :: z :: bs') := by rw [ht]; simp
          have hpp : (enc (as ++ (u' ++ [x]))).length = (enc ((as ++ u') ++ [x])).length := by simp
          have hlv : Leaves x z := ⟨hx, hbs z rfl⟩
          exact ⟨((hs.2.2 _ x z _ htt hpp).2.1 hlv).unique (hstart Starts hS hS2 hlt), (he.2.2 _ x z _ htt hpp).1 (.inl hlv)⟩
  rw [hkey.1, hkey.2] at e1
  exact ⟨c', e1, hkey.2 ▸ h1⟩

/-- A word cursor on a leaf, for the cases below. -/
def exampleWords : Rope := .fromLeaf (enc "foo_1(bär) ++\n\n baz".toList)

example : exampleWords.Balanced ∧ CharBoundary exampleWords.text 7 ∧ ((Cursor.new exampleWords 7).map (·.position)) = some 7 ∧
    ((Cursor.new exampleWords 7).bind WordCursor.selectWord).map (·.2) = some (6, 10) ∧
    ((Cursor.new exampleWords 15).bind WordCursor.selectWord).map (·.2) = some (15, 15) ∧
    ((Cursor.new exampleWords 0).bind (WordCursor.visitNext 30)) = some [5, 10, 11, 14, 15, 16, 20] ∧
    ((Cursor.new exampleWords 20).bind (WordCursor.visitPrev 30)) = some [17, 16, 15, 14, 12, 6, 0] := by
  refine ⟨⟨0, Node.wf_fromLeaf ⟨⟨_, rfl⟩, by decide +kernel⟩⟩, ⟨"foo_1(b".toList, "är) ++\n\n baz".toList, by decide +kernel, by decide +kernel⟩, by decide +kernel, by decide +kernel, by decide +kernel, by decide +kernel, by decide +kernel⟩

/-- The word goes over the end of a leaf. -/
example : exampleRope.Balanced ∧ ((Cursor.new exampleRope 604).bind WordCursor.selectWord).map (·.2) = some (600, 1199) := by
  exact ⟨exampleRope_balanced, by decide +kernel⟩

end Xi
