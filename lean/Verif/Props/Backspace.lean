import Verif.Core.Backspace
import Verif.Rope.CharCursor
import Verif.Props.Cursor

/-!
# C46: backspace

What backspace takes away is said by a grammar, reading backwards from the caret.
-/

namespace Xi

open Find Unicode Backspace

namespace Backspace

/-! ## What is one unit -/

/-- With a skin tone goes the character it is on, with or without a variation selector. -/
def afterModifier : List Char → Nat
  | [] => 0
  | [b] => if !isVariationSelector b && isEmojiModifierBase b then 1 else 0
  | b :: b' :: _ => if isVariationSelector b then if isEmojiModifierBase b' then 2 else 0 else if isEmojiModifierBase b then 1 else 0

/-- With an emoji go all emoji that are joined to it before. -/
def afterEmoji : List Char → Nat
  | [] => 0
  | [_] => 0
  | [j, e] => if isZwj j && isEmoji e then 2 else 0
  | j :: e :: f :: rest =>
    if !isZwj j then 0
    else if isEmoji e then 2 + if isEmojiModifier e then afterModifier (f :: rest) else afterEmoji (f :: rest)
    else if isVariationSelector e && isEmoji f then 3 + afterEmoji rest
    else 0

/-- With a keycap goes the key. -/
def afterKeycap : List Char → Nat
  | [] => 0
  | [b] => if !isVariationSelector b && isKeycapBase b then 1 else 0
  | b :: b' :: _ => if isVariationSelector b then if isKeycapBase b' then 2 else 0 else if isKeycapBase b then 1 else 0

/-- With the end of a tag sequence goes the sequence with its emoji; if there is none, only the
end goes, but at the start of the text the whole sequence. -/
def afterCancelTag (l : List Char) : Nat :=
  match l.dropWhile isTagSpecChar with
  | [] => (l.takeWhile isTagSpecChar).length
  | e :: _ => if isEmoji e then (l.takeWhile isTagSpecChar).length + 1 else 0

/-- With a variation selector goes the character before, and what goes with it. -/
def afterSelector : List Char → Nat
  | [] => 0
  | e :: rest => if isEmoji e then 1 + afterEmoji rest else if isVariationSelector e then 0 else 1

/-- The number of characters that go at once; the list has the last character first. -/
def unitLength : List Char → Nat
  | [] => 0
  | c :: rest =>
    if c = '\n' then if rest.head? = some '\r' then 2 else 1
    else if isVariationSelector c then 1 + afterSelector rest
    else if isRegionalIndicatorSymbol c then if (rest.takeWhile isRegionalIndicatorSymbol).length % 2 = 1 then 2 else 1
    else if isEmojiModifier c then 1 + afterModifier rest
    else if isEmojiCombiningEnclosingKeycap c then 1 + afterKeycap rest
    else if isEmoji c then 1 + afterEmoji rest
    else if isEmojiCancelTag c then 1 + afterCancelTag rest
    else 1

/-! ## The state machine on a list -/

/-- The state machine reading characters until it is done. -/
def scanChars (s : Scan) : List Char → Scan
  | [] => s
  | c :: l => if s.state = .finished then s else scanChars (scanStep s c) l

theorem scan_finished (n v : Int) (l : List Char) : scanChars ⟨.finished, n, v⟩ l = ⟨.finished, n, v⟩ := by
  cases l <;> simp [scanChars]

theorem scan_modifier (n v : Int) (l : List Char) : (scanChars ⟨.beforeEmojiModifier, n, v⟩ l).deleteCount = n + (afterModifier l : Nat) := by
  match l with
  | [] => simp [scanChars, afterModifier]
  | [b] =>
    simp only [scanChars, scanStep, afterModifier]
    cases isVariationSelector b <;> cases isEmojiModifierBase b <;> simp
  | b :: b' :: l =>
    simp only [scanChars, scanStep, afterModifier]
    cases isVariationSelector b <;> cases isEmojiModifierBase b <;> cases isEmojiModifierBase b' <;> simp [scan_finished]

theorem scan_keycap (n v : Int) (l : List Char) : (scanChars ⟨.beforeKeycap, n, v⟩ l).deleteCount = n + (afterKeycap l : Nat) := by
  match l with
  | [] => simp [scanChars, afterKeycap]
  | [b] =>
    simp only [scanChars, scanStep, afterKeycap]
    cases isVariationSelector b <;> cases isKeycapBase b <;> simp
  | b :: b' :: l =>
    simp only [scanChars, scanStep, afterKeycap]
    cases isVariationSelector b <;> cases isKeycapBase b <;> cases isKeycapBase b' <;> simp [scan_finished]

theorem scan_emoji : ∀ (l : List Char) (n v : Int), (scanChars ⟨.beforeEmoji, n, v⟩ l).deleteCount = n + (afterEmoji l : Nat)
  | [], n, v => by simp [scanChars, afterEmoji]
  | [j], n, v => by
    simp only [scanChars, scanStep, afterEmoji]
    cases isZwj j <;> simp
  | [j, e], n, v => by
    simp only [scanChars, scanStep, afterEmoji]
    cases isZwj j <;> cases isEmoji e <;> cases isEmojiModifier e <;> cases isVariationSelector e <;> simp
  | j :: e :: f :: rest, n, v => by
    have ih1 := scan_emoji (f :: rest)
    have ih2 := scan_emoji rest
    have ih3 := fun n v => scan_modifier n v (f :: rest)
    simp only [afterEmoji]
    rw [scanChars, if_neg (by simp)]
    simp only [scanStep]
    cases hj : isZwj j
    · simp [scan_finished]
    · simp only [if_true]
      rw [scanChars, if_neg (by simp)]
      simp only [scanStep]
      cases he : isEmoji e
      · cases hv : isVariationSelector e
        · simp [scan_finished]
        · simp only [Bool.false_eq_true, if_false, if_true]
          rw [scanChars, if_neg (by simp)]
          simp only [scanStep]
          cases hf : isEmoji f
          · simp [scan_finished]
          · simp only [if_true, ih2]; simp; omega
      · cases hm : isEmojiModifier e
        · simp only [if_true, Bool.false_eq_true, if_false, ih1]; simp; omega
        · simp only [if_true, ih3]; simp; omega

theorem scan_ris : ∀ (l : List Char) (n v : Int),
    (scanChars ⟨.oddNumberedRIS, n, v⟩ l).deleteCount = n + (if (l.takeWhile isRegionalIndicatorSymbol).length % 2 = 1 then 1 else 0) ∧
    (scanChars ⟨.evenNumberedRIS, n, v⟩ l).deleteCount = n - (if (l.takeWhile isRegionalIndicatorSymbol).length % 2 = 1 then 1 else 0)
  | [], n, v => by simp [scanChars]
  | c :: l, n, v => by
    have ih := scan_ris l
    have e1 : scanChars ⟨.oddNumberedRIS, n, v⟩ (c :: l) = scanChars (scanStep ⟨.oddNumberedRIS, n, v⟩ c) l := by rw [scanChars, if_neg (by simp)]
    have e2 : scanChars ⟨.evenNumberedRIS, n, v⟩ (c :: l) = scanChars (scanStep ⟨.evenNumberedRIS, n, v⟩ c) l := by rw [scanChars, if_neg (by simp)]
    rw [e1, e2]
    simp only [scanStep]
    cases hc : isRegionalIndicatorSymbol c
    · simp [scan_finished, List.takeWhile_cons, hc]
    · simp only [if_true, (ih _ _).1, (ih _ _).2, List.takeWhile_cons, hc, List.length_cons]
      constructor <;> repeat' split
      all_goals omega

theorem scan_tag : ∀ (l : List Char) (n v : Int), (scanChars ⟨.inTagSequence, n, v⟩ l).deleteCount =
    (match l.dropWhile isTagSpecChar with
    | [] => n + ((l.takeWhile isTagSpecChar).length : Int)
    | e :: _ => if isEmoji e then n + ((l.takeWhile isTagSpecChar).length : Int) + 1 else 1 : Int)
  | [], n, v => by simp [scanChars]
  | c :: l, n, v => by
    have ih := scan_tag l
    rw [scanChars, if_neg (by simp)]
    simp only [scanStep]
    cases hc : isTagSpecChar c
    · cases he : isEmoji c <;> simp [scan_finished, hc, he]
    · simp only [if_true, ih, List.takeWhile_cons, List.dropWhile_cons, hc, List.length_cons]
      repeat' split
      all_goals omega

theorem scan_selector (n v : Int) (l : List Char) : (scanChars ⟨.beforeVS, n, v⟩ l).deleteCount = n + (afterSelector l : Nat) := by
  cases l with
  | nil => simp [scanChars, afterSelector]
  | cons e l =>
    simp only [afterSelector]
    rw [scanChars, if_neg (by simp)]
    simp only [scanStep]
    cases he : isEmoji e
    · cases hv : isVariationSelector e <;> simp [scan_finished]
    · simp only [if_true, scan_emoji]; simp; omega

theorem scan_unit (v : Int) (l : List Char) : (scanChars ⟨.start, 0, v⟩ l).deleteCount = (unitLength l : Nat) := by
  cases l with
  | nil => simp [scanChars, unitLength]
  | cons c rest =>
    rw [scanChars, if_neg (by simp)]
    simp only [scanStep, unitLength]
    by_cases h1 : c = '\n'
    · simp only [h1, if_true]
      cases rest with
      | nil => simp [scanChars]
      | cons d rest =>
        rw [scanChars, if_neg (by simp)]
        by_cases h2 : d = '\r' <;> simp [scanStep, h2, scan_finished]
    · simp only [h1, if_false]
      cases h2 : isVariationSelector c
      · simp only [Bool.false_eq_true, if_false]
        cases h3 : isRegionalIndicatorSymbol c
        · simp only [Bool.false_eq_true, if_false]
          cases h4 : isEmojiModifier c
          · simp only [Bool.false_eq_true, if_false]
            cases h5 : isEmojiCombiningEnclosingKeycap c
            · simp only [Bool.false_eq_true, if_false]
              cases h6 : isEmoji c
              · simp only [Bool.false_eq_true, if_false]
                cases h7 : isEmojiCancelTag c
                · simp [scan_finished]
                · simp only [if_true, scan_tag, afterCancelTag]
                  split
                  · simp
                  · split <;> simp <;> omega
              · simp [scan_emoji]
            · simp [scan_keycap]
          · simp [scan_modifier]
        · simp only [if_true, (scan_ris _ _ _).1]
          split <;> simp
      · simp [scan_selector]

theorem afterModifier_le (l : List Char) : afterModifier l ≤ l.length := by
  match l with
  | [] => simp [afterModifier]
  | [b] => simp only [afterModifier]; split <;> simp
  | b :: b' :: l => simp only [afterModifier]; repeat' split
                    all_goals simp

theorem afterKeycap_le (l : List Char) : afterKeycap l ≤ l.length := by
  match l with
  | [] => simp [afterKeycap]
  | [b] => simp only [afterKeycap]; split <;> simp
  | b :: b' :: l => simp only [afterKeycap]; repeat' split
                    all_goals simp

theorem afterEmoji_le : ∀ (l : List Char), afterEmoji l ≤ l.length
  | [] => by simp [afterEmoji]
  | [_] => by simp [afterEmoji]
  | [j, e] => by simp only [afterEmoji]; split <;> simp
  | j :: e :: f :: rest => by
    have h1 := afterEmoji_le (f :: rest)
    have h2 := afterEmoji_le rest
    have h3 := afterModifier_le (f :: rest)
    simp only [afterEmoji]
    simp only [List.length_cons] at *
    repeat' split
    all_goals omega

theorem unitLength_le (l : List Char) : unitLength l ≤ l.length := by
  cases l with
  | nil => simp [unitLength]
  | cons c rest =>
    have h1 := afterEmoji_le rest
    have h2 := afterModifier_le rest
    have h3 := afterKeycap_le rest
    have h4 : afterSelector rest ≤ rest.length := by
      cases rest with
      | nil => simp [afterSelector]
      | cons e rest =>
        have := afterEmoji_le rest
        simp only [afterSelector, List.length_cons]
        repeat' split
        all_goals omega
    have h5 : afterCancelTag rest ≤ rest.length := by
      have e := congrArg List.length (List.takeWhile_append_dropWhile (p := isTagSpecChar) (l := rest))
      rw [List.length_append] at e
      simp only [afterCancelTag]
      split
      · omega
      · next h => rw [h] at e; simp at e; split <;> omega
    have h6 : (rest.takeWhile isRegionalIndicatorSymbol).length ≤ rest.length := by
      have e := congrArg List.length (List.takeWhile_append_dropWhile (p := isRegionalIndicatorSymbol) (l := rest))
      rw [List.length_append] at e
      omega
    have h7 : rest.head? = some '\r' → 1 ≤ rest.length := by
      intro h; cases rest <;> simp at h ⊢
    simp only [unitLength, List.length_cons]
    repeat' split
    all_goals first | omega | (have := h7 ‹_›; omega)

theorem unitLength_pos {l : List Char} (h : l ≠ []) : 1 ≤ unitLength l := by
  cases l with
  | nil => exact absurd rfl h
  | cons c rest =>
    simp only [unitLength]
    repeat' split
    all_goals omega

/-! ## On the rope -/

theorem prevOffset_char {r : Rope} (hr : r.Balanced) {A B : List Char} {c : Char} (ht : r.text = enc (A ++ c :: B)) :
    r.prevCodepointOffset (enc (A ++ [c])).length = some (some (enc A).length) := by
  have hle : (enc (A ++ [c])).length ≤ r.text.length := by
    rw [ht, show A ++ c :: B = (A ++ [c]) ++ B by simp, enc_append (A ++ [c]), List.length_append]; omega
  obtain ⟨q, e, h⟩ := C52_prev_codepoint_offset r _ hr hle
  have h' := prev_char (A := A) (B := B) (c := c)
  rw [← ht] at h'
  cases q with
  | none => exact absurd h'.2.1 (h _ h'.1)
  | some q => rw [e, h.unique h']

theorem scanLoop_spec {r : Rope} (hr : r.Balanced) : ∀ (fuel : Nat) {A B : List Char} (s : Scan), A.length < fuel → r.text = enc (A ++ B) →
    scanLoop r fuel s (enc A).length = some (scanChars s A.reverse) := by
  intro fuel
  induction fuel with
  | zero => intro A B s h; omega
  | succ fuel ih =>
    intro A B s hf ht
    rcases List.eq_nil_or_concat A with rfl | ⟨A', a, rfl⟩
    · simp [scanLoop, scanChars]
    · rw [List.concat_eq_append] at *
      have ht' : r.text = enc (A' ++ a :: B) := by rw [ht]; simp
      have hpos : 0 < (enc (A' ++ [a])).length := enc_pos (by simp)
      rw [List.reverse_append]
      simp only [List.reverse_cons, List.reverse_nil, List.nil_append, List.cons_append, scanChars, scanLoop]
      by_cases hs : s.state = .finished
      · rw [if_neg (fun h => h.1 hs), if_pos hs]
      · rw [if_pos ⟨hs, hpos⟩, if_neg hs]
        have hle : (enc (A' ++ [a])).length ≤ r.text.length := by
          rw [ht, enc_append (A' ++ [a]), List.length_append]; omega
        obtain ⟨c, e1, h1⟩ := Cursor.new_stands hr hle
        obtain ⟨c', e2, _⟩ := Cursor.prevCodepoint_spec ht' h1
        simp only [e1, e2, prevOffset_char hr ht', Option.bind_eq_bind, Option.bind_some, Option.getD_some]
        exact ih _ (by simp at hf; omega) ht'

theorem moveBack_spec {r : Rope} (hr : r.Balanced) {A : List Char} : ∀ (n : Nat) {D B : List Char}, D.length = n → r.text = enc (A ++ D ++ B) →
    moveBack r n (enc (A ++ D)).length = some (enc A).length := by
  intro n
  induction n with
  | zero => intro D B h ht; simp [List.length_eq_zero_iff.mp h, moveBack]
  | succ n ih =>
    intro D B h ht
    rcases List.eq_nil_or_concat D with rfl | ⟨D', d, rfl⟩
    · simp at h
    · rw [List.concat_eq_append] at *
      have ht' : r.text = enc ((A ++ D') ++ d :: B) := by rw [ht]; simp
      simp only [moveBack, ← List.append_assoc A D' [d], prevOffset_char hr ht', Option.bind_eq_bind, Option.bind_some, Option.getD_some]
      exact ih (B := d :: B) (by simp at h; omega) ht'

/-- The number of bytes between the start of the line and `p`. -/
def columnAt (text : List UInt8) (p : Nat) : Nat := ((text.take p).reverse.takeWhile (· ≠ 10)).length

theorem columnAt_le (text : List UInt8) (p : Nat) : columnAt text p ≤ p := by
  have e := congrArg List.length (List.takeWhile_append_dropWhile (p := (· ≠ 10)) (l := (text.take p).reverse))
  rw [List.length_append, List.length_reverse, List.length_take] at e
  unfold columnAt
  omega

theorem takeWhile_all {p : UInt8 → Bool} : ∀ {l m : List UInt8}, (∀ x ∈ l, p x = true) → (∀ x, m.head? = some x → p x = false) → (l ++ m).takeWhile p = l
  | [], m, _, h => by
    cases m with
    | nil => rfl
    | cons x m => simp [List.takeWhile_cons, h x rfl]
  | x :: l, m, h1, h2 => by
    simp only [List.cons_append, List.takeWhile_cons, h1 x (by simp), if_true]
    rw [takeWhile_all (fun y hy => h1 y (by simp [hy])) h2]

theorem lineCol_spec {r : Rope} (hr : r.Balanced) {p : Nat} (hp : CharBoundary r.text p) : ∃ line, logicalLineCol r p = some (line, columnAt r.text p) := by
  obtain ⟨line, s, e, h1, h2, _, h4, _⟩ := C05_offset_in_line r p hr hp
  have h5 := C04_line_of_offset r p hr hp
  rw [h1] at h5
  injection h5 with h5
  have hple : p ≤ r.text.length := by
    obtain ⟨a, b, h, rfl⟩ := hp
    rw [h, List.length_append]; omega
  obtain ⟨o, g1, g2, g3, g4, g5⟩ := C04_offset_of_line r line hr (by rw [h5]; exact List.Sublist.count_le _ (List.take_sublist _ _))
  rw [h2] at g1
  injection g1 with g1
  subst g1
  refine ⟨line, ?_⟩
  have key : columnAt r.text p = p - s := by
    have hsplit : r.text.take p = r.text.take s ++ (r.text.drop s).take (p - s) := by
      rw [← List.take_add, Nat.add_sub_cancel' h4]
    have hno : ∀ x ∈ (r.text.drop s).take (p - s), (decide (x ≠ 10)) = true := by
      intro x hx
      have hc : ((r.text.drop s).take (p - s)).count newline = 0 := by
        rw [hsplit, List.count_append] at h5; omega
      have := List.count_eq_zero.mp hc
      simp only [decide_eq_true_eq]
      rintro rfl
      exact this hx
    unfold columnAt
    rw [hsplit, List.reverse_append, takeWhile_all]
    · simp; omega
    · intro x hx; exact hno x (by simpa using hx)
    · intro x hx
      by_cases hl : line = 0
      · rw [g4 hl] at hx; simp at hx
      · obtain ⟨hs0, hs1⟩ := g5 (by omega)
        rw [List.head?_reverse, List.getLast?_eq_getElem?, List.getElem?_take] at hx
        rw [if_pos (by rw [List.length_take]; omega)] at hx
        rw [List.length_take, Nat.min_eq_left g2, hs1] at hx
        injection hx with hx
        rw [← hx]; rfl
  simp only [logicalLineCol, h1, h2, Option.bind_eq_bind, Option.bind_some]
  rw [if_pos h4, key]

theorem allSpaces_spec {r : Rope} (hr : r.Balanced) : ∀ (n i : Nat), i + n ≤ r.text.length →
    allSpaces r n i = some (decide ((r.text.drop i).take n = List.replicate n 32)) := by
  intro n
  induction n with
  | zero => intro i _; simp [allSpaces]
  | succ n ih =>
    intro i h
    have hi : i < r.text.length := by omega
    simp only [allSpaces, C06_byte_at r i hr (by omega), List.getElem?_eq_getElem hi, Option.bind_eq_bind, Option.bind_some]
    rw [List.drop_eq_getElem_cons hi, List.take_succ_cons, List.replicate_succ]
    by_cases hx : r.text[i] = 32
    · rw [if_pos hx, ih (i + 1) (by omega)]
      simp [hx]
    · rw [if_neg hx]
      simp [hx]

theorem last_space {c : Char} (h : (String.utf8EncodeChar c).getLast? = some 32) : c = ' ' := by
  by_cases hc : c.toNat < 128
  · rw [encode_ascii hc] at h
    simp at h
    have h' : c.toNat = 32 := by
      have := congrArg UInt8.toNat h
      simp at this
      omega
    exact Char.toNat_inj.mp h'
  · obtain ⟨b, t, e, hb⟩ := encode_wide hc
    exfalso
    have hall : ∀ x ∈ String.utf8EncodeChar c, 128 ≤ x.toNat := by
      have hv := char_bound c
      have h' : ¬ c.val.toNat ≤ 127 := fun h' => hc (Nat.lt_succ_of_le h')
      unfold String.utf8EncodeChar
      simp only []
      generalize c.val.toNat = v at hv h'
      rw [if_neg h']
      split
      · simp; omega
      · split
        · simp; omega
        · simp; omega
    have := hall 32 (List.mem_of_getLast? h)
    simp at this

/-- Spaces at the end of an encoded text are space characters. -/
theorem enc_spaces : ∀ (n : Nat) {cs : List Char}, n ≤ (enc cs).length → (enc cs).drop ((enc cs).length - n) = List.replicate n 32 →
    ∃ A, cs = A ++ List.replicate n ' ' := by
  intro n
  induction n with
  | zero => intro cs _ _; exact ⟨cs, by simp⟩
  | succ n ih =>
    intro cs h1 h2
    rcases List.eq_nil_or_concat cs with rfl | ⟨cs', c, rfl⟩
    · simp at h1
    · rw [List.concat_eq_append] at *
      have hlast : (enc (cs' ++ [c])).getLast? = some 32 := by
        have := congrArg List.getLast? h2
        rw [List.getLast?_drop, if_neg (by omega)] at this
        rw [this]
        simp [List.replicate_succ']
      have hc : c = ' ' := by
        rw [enc_append, enc_cons, List.getLast?_append] at hlast
        simp only [List.flatMap_nil, List.append_nil] at hlast
        have hb : ∃ b, (String.utf8EncodeChar c).getLast? = some b := by
          cases hg : (String.utf8EncodeChar c).getLast? with
          | none =>
            have := List.getLast?_eq_none_iff.mp hg
            have := enc_pos (a := [c]) (by simp)
            simp [enc, *] at this
          | some b => exact ⟨b, rfl⟩
        obtain ⟨b, hb⟩ := hb
        rw [hb] at hlast
        simp only [Option.some_or] at hlast
        injection hlast with hlast
        subst hlast
        exact last_space hb
      subst hc
      have hl : (enc (cs' ++ [' '])).length = (enc cs').length + 1 := by
        rw [enc_append, List.length_append]; rfl
      obtain ⟨A, hA⟩ := ih (cs := cs') (by omega) (by
        rw [hl, show (enc cs').length + 1 - (n + 1) = (enc cs').length - n by omega, enc_append, List.drop_append_of_le_length (by omega)] at h2
        have : List.replicate (n + 1) (32 : UInt8) = List.replicate n 32 ++ [32] := List.replicate_succ'
        rw [this] at h2
        exact (List.append_inj' h2 rfl).1)
      exact ⟨A, by rw [hA, List.append_assoc, ← List.replicate_succ']⟩

theorem enc_replicate : ∀ (w : Nat), enc (List.replicate w ' ') = List.replicate w 32
  | 0 => rfl
  | w + 1 => by rw [List.replicate_succ, enc_cons, enc_replicate w]; rfl

/-- The number of spaces that go together at column `col`: back to the tab stop before. -/
def tabRun (tabSize col : Nat) : Nat := if col % tabSize = 0 then tabSize else col % tabSize

end Backspace

/-! ## The properties -/

/-- **C46.** At a caret that is not at the start of the text, backspace takes away at least one
whole character, right before the caret: with tab stops, if there are only spaces back to the
tab stop before, these spaces, and they are all in the line of the caret; otherwise one unit. -/
theorem C46_backspace {r : Rope} (hr : r.Balanced) {p : Nat} (hp : CharBoundary r.text p) (h0 : 0 < p) (config : BackspaceConfig)
    (htab : 0 < config.tabSize) (region : SelRegion) (h1 : region.start = p) (h2 : region.stop = p) :
    ∃ A D B, r.text = enc (A ++ D ++ B) ∧ p = (enc (A ++ D)).length ∧ D ≠ [] ∧
      offsetForDeleteBackwards region r config = some (enc A).length ∧
      ((config.translateTabsToSpaces = true ∧ config.useTabStops = true ∧ D = List.replicate (tabRun config.tabSize (columnAt r.text p)) ' ' ∧
          D.length ≤ columnAt r.text p) ∨
        (¬ (config.translateTabsToSpaces = true ∧ config.useTabStops = true ∧
            ∃ A', A ++ D = A' ++ List.replicate (tabRun config.tabSize (columnAt r.text p)) ' ') ∧
          D.length = unitLength (A ++ D).reverse)) := by
  obtain ⟨C, B, ht, hpC⟩ : ∃ C B, r.text = enc (C ++ B) ∧ p = (enc C).length := by
    obtain ⟨a, b, h, h'⟩ := hp
    exact ⟨a, b, by rw [enc_append]; exact h, h'⟩
  obtain ⟨line, hcol⟩ := lineCol_spec hr hp
  have hple : p ≤ r.text.length := by rw [ht, hpC, enc_append, List.length_append]; omega
  have hcaret : region.isCaret = true := by simp [SelRegion.isCaret, h1, h2]
  have hw : tabWidth config (columnAt r.text p) = some (tabRun config.tabSize (columnAt r.text p)) := by
    simp only [tabWidth, tabRun]
    rw [if_neg (by omega)]
    split <;> rfl
  have hw0 : 0 < tabRun config.tabSize (columnAt r.text p) := by
    unfold tabRun; split <;> omega
  have hcl := columnAt_le r.text p
  have hwle : columnAt r.text p ≠ 0 → tabRun config.tabSize (columnAt r.text p) ≤ columnAt r.text p := by
    intro hne
    unfold tabRun
    split
    · next h => exact Nat.le_of_dvd (by omega) (Nat.dvd_of_mod_eq_zero h)
    · exact Nat.mod_le _ _
  generalize hW : tabRun config.tabSize (columnAt r.text p) = w at *
  have htake : r.text.take p = enc C := by rw [ht, hpC, enc_append, List.take_left' rfl]
  have hsp : allSpaces r (p - (p - w)) (p - w) = some (decide ((enc C).drop (p - w) = List.replicate (p - (p - w)) 32)) := by
    rw [allSpaces_spec hr _ _ (by omega), ← htake, List.drop_take]
  -- spaces up to the tab stop are in the line
  have hline : (enc C).drop (p - w) = List.replicate (p - (p - w)) 32 → w ≤ columnAt r.text p ∧ ∃ A, C = A ++ List.replicate w ' ' := by
    intro h
    have hc0 : columnAt r.text p ≠ 0 := by
      have hlast : (enc C).getLast? = some 32 := by
        have := congrArg List.getLast? h
        rw [List.getLast?_drop, if_neg (by omega)] at this
        rw [this, show p - (p - w) = (p - (p - w) - 1) + 1 by omega, List.replicate_succ']
        simp
      obtain ⟨m, hm⟩ := List.getLast?_eq_some_iff.mp hlast
      unfold columnAt
      rw [htake, hm, List.reverse_append]
      simp [List.takeWhile_cons]
    have hle := hwle hc0
    refine ⟨hle, enc_spaces w (by omega) ?_⟩
    rw [← hpC, h]
    congr 1; omega
  have hconv : (∃ A', C = A' ++ List.replicate w ' ') → (enc C).drop (p - w) = List.replicate (p - (p - w)) 32 := by
    rintro ⟨A', hA⟩
    have hr32 := enc_replicate w
    have hl : p = (enc A').length + w := by rw [hpC, hA, enc_append, List.length_append, hr32, List.length_replicate]
    rw [hA, enc_append, hr32, List.drop_left' (by omega)]
    congr 1; omega
  by_cases hb : config.translateTabsToSpaces = true ∧ config.useTabStops = true ∧ (enc C).drop (p - w) = List.replicate (p - (p - w)) 32
  · obtain ⟨b1, b2, b3⟩ := hb
    obtain ⟨hle, A, hA⟩ := hline b3
    have hr32 := enc_replicate w
    have hl : p = (enc A).length + w := by rw [hpC, hA, enc_append, List.length_append, hr32, List.length_replicate]
    refine ⟨A, List.replicate w ' ', B, by rw [ht, hA], by rw [hpC, hA], ?_, ?_, .inl ⟨b1, b2, rfl, by simpa using hle⟩⟩
    · intro h; have := congrArg List.length h; simp at this; omega
    · have hgoal : p - w = (enc A).length := by omega
      simp only [offsetForDeleteBackwards, hcaret, h1, h2, Bool.not_true, Bool.false_eq_true, if_false, hcol, hw, Option.bind_eq_bind, Option.bind_some]
      rw [if_pos h0, hsp]
      simp only [Option.bind_some, b1, b2, b3, decide_true, Bool.and_true]
      rw [hgoal]
      simp
  · have hlen : C.length < r.len + 1 := by
      have := length_le_enc C
      rw [Rope.len_eq hr]; omega
    have hne : C ≠ [] := by
      rintro rfl
      rw [hpC] at h0; simp at h0
    have hu1 := unitLength_pos (l := C.reverse) (by simpa using hne)
    have hu2 := unitLength_le C.reverse
    rw [List.length_reverse] at hu2
    have hcut : C = C.take (C.length - unitLength C.reverse) ++ C.drop (C.length - unitLength C.reverse) := (List.take_append_drop _ _).symm
    generalize hA : C.take (C.length - unitLength C.reverse) = A at hcut
    generalize hD : C.drop (C.length - unitLength C.reverse) = D at hcut
    have hDl : D.length = unitLength C.reverse := by rw [← hD, List.length_drop]; omega
    refine ⟨A, D, B, by rw [ht, hcut], by rw [hpC, hcut], ?_, ?_, .inr ⟨?_, by rw [hDl, hcut]⟩⟩
    · intro h; rw [h] at hDl; simp at hDl; omega
    · simp only [offsetForDeleteBackwards, hcaret, h1, h2, Bool.not_true, Bool.false_eq_true, if_false, hcol, hw, Option.bind_eq_bind, Option.bind_some]
      rw [if_pos h0, hsp]
      simp only [Option.bind_some]
      rw [if_neg (by simp only [Bool.and_eq_true, decide_eq_true_eq]; rintro ⟨⟨x1, x2⟩, x3⟩; exact hb ⟨x2, x3, x1⟩)]
      rw [hpC, scanLoop_spec hr _ _ hlen ht]
      simp only [Option.bind_some, scan_unit, Int.toNat_natCast]
      rw [hcut, ← hcut, ← hDl]
      rw [show (enc C).length = (enc (A ++ D)).length by rw [← hcut]]
      exact moveBack_spec hr _ rfl (by rw [← hcut]; exact ht)
    · rintro ⟨x1, x2, x3⟩
      rw [← hcut] at x3
      exact hb ⟨x1, x2, hconv x3⟩

/-- **C46.** At the start of the text nothing is deleted. -/
theorem C46_start {r : Rope} (hr : r.Balanced) (config : BackspaceConfig) (htab : 0 < config.tabSize) (region : SelRegion)
    (h1 : region.start = 0) (h2 : region.stop = 0) : offsetForDeleteBackwards region r config = some 0 := by
  obtain ⟨cs, hcs⟩ := Rope.text_utf8 hr
  have hp : CharBoundary r.text 0 := ⟨[], cs, by simpa using hcs, rfl⟩
  obtain ⟨line, hcol⟩ := lineCol_spec hr hp
  have hcaret : region.isCaret = true := by simp [SelRegion.isCaret, h1, h2]
  have hw : ∃ w, tabWidth config (columnAt r.text 0) = some w := by
    simp only [tabWidth]
    rw [if_neg (by omega)]
    split <;> exact ⟨_, rfl⟩
  obtain ⟨w, hw⟩ := hw
  simp only [offsetForDeleteBackwards, hcaret, h1, h2, Bool.not_true, Bool.false_eq_true, if_false, hcol, hw, Option.bind_eq_bind, Option.bind_some,
    Nat.lt_irrefl, Bool.false_and]
  have := scanLoop_spec hr (r.len + 1) (A := []) (B := cs) ⟨.start, 0, 0⟩ (by simp) (by simpa using hcs)
  simp only [List.flatMap_nil, List.length_nil] at this
  rw [this]
  rfl

/-- **C46.** Of a selection that is not a caret, everything goes. -/
theorem C46_selection {r : Rope} (config : BackspaceConfig) (region : SelRegion) (h : region.start ≠ region.stop) :
    offsetForDeleteBackwards region r config = some (min region.start region.stop) := by
  have : region.isCaret = false := by simpa [SelRegion.isCaret] using h
  simp [offsetForDeleteBackwards, this, SelRegion.lo]

/-- **C46.** Why the tab size has to be above 0: with 0, backspace at a caret would panic, on any text.  The
configuration never gives 0 (`C46_tab_size`, in `Props/Config.lean`). -/
theorem C46_tab_size_needed {r : Rope} (config : BackspaceConfig) (htab : config.tabSize = 0) (region : SelRegion) (h : region.start = region.stop) :
    offsetForDeleteBackwards region r config = none := by
  have hc : region.isCaret = true := by simpa [SelRegion.isCaret] using h
  simp only [offsetForDeleteBackwards, hc, Bool.not_true, Bool.false_eq_true, if_false, tabWidth, htab, if_true]
  cases logicalLineCol r region.start <;> rfl

/-- **C46.** Of a run of flag letters at the end, two go if their number is even, one if it is
odd. -/
theorem C46_flags {c : Char} (rest : List Char) (hc : isRegionalIndicatorSymbol c = true) :
    unitLength (c :: rest) = if ((c :: rest).takeWhile isRegionalIndicatorSymbol).length % 2 = 0 then 2 else 1 := by
  have h1 : c ≠ '\n' := by rintro rfl; revert hc; decide
  have h2 : isVariationSelector c = false := by
    simp [isRegionalIndicatorSymbol] at hc
    simp [isVariationSelector]
    omega
  simp only [unitLength, h1, h2, hc, if_true, if_false, Bool.false_eq_true, List.takeWhile_cons, List.length_cons]
  split <;> split <;> omega

/-- **C46.** An ordinary character goes alone. -/
theorem C46_ordinary {c : Char} (rest : List Char) (h : c.toNat < 0x20 ∨ (0x40 ≤ c.toNat ∧ c.toNat ≤ 0xa8)) (hn : c ≠ '\n') :
    unitLength (c :: rest) = 1 := by
  have h2 : isVariationSelector c = false := by simp [isVariationSelector]; omega
  have h3 : isRegionalIndicatorSymbol c = false := by simp [isRegionalIndicatorSymbol]; omega
  have h4 : isEmojiModifier c = false := by simp [isEmojiModifier]; omega
  have h5 : isEmojiCombiningEnclosingKeycap c = false := by simp [isEmojiCombiningEnclosingKeycap]; omega
  have h7 : isEmojiCancelTag c = false := by simp [isEmojiCancelTag]; omega
  have h6 : isEmoji c = false := by
    have key : ∀ n : Fin 0xa9, n.1 < 0x20 ∨ (0x40 ≤ n.1 ∧ n.1 ≤ 0xa8) → isEmoji (Char.ofNat n.1) = false := by decide +kernel
    have := key ⟨c.toNat, by omega⟩ h
    rwa [Char.ofNat_toNat] at this
  simp [unitLength, hn, h2, h3, h4, h5, h6, h7]

/-- A family of three with joiners, after a flag; a keycap; a flag of tags; a carriage return. -/
example : unitLength [Char.ofNat 0x1F466, Char.ofNat 0x200D, Char.ofNat 0x1F469, Char.ofNat 0x200D, Char.ofNat 0x1F468, Char.ofNat 0x1F1E6, 'a'] = 5 ∧
    unitLength [Char.ofNat 0x20E3, Char.ofNat 0xFE0F, '1', 'x'] = 3 ∧
    unitLength [Char.ofNat 0x1F3FF, Char.ofNat 0x1F44D, 'x'] = 2 ∧
    unitLength [Char.ofNat 0xE007F, Char.ofNat 0xE0067, Char.ofNat 0xE0062, Char.ofNat 0x1F3F4, 'x'] = 4 ∧
    unitLength [Char.ofNat 0xE007F, Char.ofNat 0xE0067, 'x'] = 1 ∧ unitLength [Char.ofNat 0xE007F, Char.ofNat 0xE0067] = 2 ∧
    unitLength ['\n', '\r', 'x'] = 2 := by decide +kernel

/-- A text with a flag, spaces and a family. -/
def exampleBackspace : Rope := .fromLeaf (enc ['x', '\r', '\n', 'y', ' ', ' ', ' ', ' ', ' ', Char.ofNat 0x1F1E6, Char.ofNat 0x1F1E7, Char.ofNat 0x1F1E8, 'z'])

example : exampleBackspace.Balanced ∧ CharBoundary exampleBackspace.text 21 ∧
    offsetForDeleteBackwards (.caret 21) exampleBackspace ⟨4, true, true⟩ = some 17 ∧
    offsetForDeleteBackwards (.caret 17) exampleBackspace ⟨4, true, true⟩ = some 9 ∧
    offsetForDeleteBackwards (.caret 9) exampleBackspace ⟨4, true, true⟩ = some 7 ∧
    offsetForDeleteBackwards (.caret 7) exampleBackspace ⟨4, true, true⟩ = some 6 ∧
    offsetForDeleteBackwards (.caret 9) exampleBackspace ⟨4, false, true⟩ = some 8 ∧
    offsetForDeleteBackwards (.caret 3) exampleBackspace ⟨4, true, true⟩ = some 1 ∧
    offsetForDeleteBackwards (.caret 3) exampleBackspace ⟨0, true, true⟩ = none := by
  refine ⟨⟨0, Node.wf_fromLeaf ⟨⟨_, rfl⟩, by decide +kernel⟩⟩, ⟨['x', '\r', '\n', 'y', ' ', ' ', ' ', ' ', ' ', Char.ofNat 0x1F1E6, Char.ofNat 0x1F1E7, Char.ofNat 0x1F1E8], ['z'], by decide +kernel, by decide +kernel⟩, ?_⟩
  decide +kernel

end Xi
