import Verif.Plugin.Sample
import Verif.Props.Comments

/-!
# C110: the sample plugin capitalises the word before an exclamation mark
-/

namespace Xi

namespace SamplePlugin

open Syntect (linesOf offsetOf linesOf_line linesOf_last)

/-- Lines with their newlines. -/
def whole (before : List (List Char)) : List Char := (before.map (· ++ ['\n'])).flatten

/-- Every text is made of whole lines and a rest. -/
theorem exists_lines : ∀ (t : List Char), ∃ before l, t = whole before ++ l ∧ (∀ b ∈ before, '\n' ∉ b) ∧ '\n' ∉ l
  | [] => ⟨[], [], rfl, by simp, by simp⟩
  | c :: cs => by
    obtain ⟨before, l, h1, h2, h3⟩ := exists_lines cs
    by_cases hc : c = '\n'
    · exact ⟨[] :: before, l, by simp [whole, h1, hc], by simpa using h2, h3⟩
    · cases before with
      | nil => exact ⟨[], c :: l, by simp [whole, h1], by simp, by simp [h3]; exact fun h => hc h.symm⟩
      | cons b bs =>
        refine ⟨(c :: b) :: bs, l, by simp [whole, h1], ?_, h3⟩
        intro x hx
        rcases List.mem_cons.mp hx with rfl | hx
        · simp only [List.mem_cons, not_or]
          exact ⟨fun h => hc h.symm, h2 b (by simp)⟩
        · exact h2 x (by simp [hx])

theorem count_whole : ∀ {before : List (List Char)}, (∀ b ∈ before, '\n' ∉ b) → (whole before).count '\n' = before.length
  | [], _ => rfl
  | b :: bs, h => by
    have hb : b.count '\n' = 0 := List.count_eq_zero.mpr (h b (by simp))
    have := count_whole (before := bs) fun x hx => h x (by simp [hx])
    simp only [whole, List.map_cons, List.flatten_cons, List.count_append, hb, List.length_cons] at this ⊢
    rw [this]
    simp
    omega

theorem linesOf_whole : ∀ {before : List (List Char)} (x : List Char), (∀ b ∈ before, '\n' ∉ b) →
    linesOf (whole before ++ x) = before.map (· ++ ['\n']) ++ linesOf x
  | [], _, _ => rfl
  | b :: bs, x, h => by
    have := linesOf_whole (before := bs) x fun y hy => h y (by simp [hy])
    have e : whole (b :: bs) ++ x = b ++ '\n' :: (whole bs ++ x) := by simp [whole]
    rw [e, linesOf_line (h b (by simp)), this]
    rfl

/-- The line in which a text goes on. -/
theorem linesOf_go : ∀ {l : List Char} (r : List Char), '\n' ∉ l → ∃ h t, linesOf r = h :: t ∧ linesOf (l ++ r) = (l ++ h) :: t
  | [], r, _ => by
    cases e : linesOf r with
    | nil => exact absurd e (Syntect.linesOf_ne r)
    | cons h t => exact ⟨h, t, rfl, e⟩
  | c :: cs, r, hl => by
    simp only [List.mem_cons, not_or] at hl
    obtain ⟨h, t, h1, h2⟩ := linesOf_go r hl.2
    refine ⟨h, t, h1, ?_⟩
    simp only [List.cons_append, linesOf, h2, if_neg (Ne.symm hl.1)]

/-- The loop goes past characters that are not white. -/
theorem scan_plain {ls e : Nat} (t : List Char) : ∀ (l : List Char) (cur ws : Nat), l ≠ [] → (∀ c ∈ l, EditOps.isWhitespace c = false) →
    ls + cur + l.length = e → scan ls e (l ++ t) cur ws = ws
  | [], _, _, h, _, _ => absurd rfl h
  | [c], cur, ws, _, hw, he => by
    have := hw c (by simp)
    simp only [List.length_cons, List.length_nil] at he
    simp [scan, this, show ls + (cur + 1) = e by omega]
  | c :: d :: l, cur, ws, _, hw, he => by
    have := hw c (by simp)
    simp only [List.length_cons] at he
    have ih := scan_plain (ls := ls) (e := e) t (d :: l) (cur + 1) ws (by simp) (fun x hx => hw x (by simp [List.mem_cons.mp hx])) (by simp only [List.length_cons]; omega)
    rw [List.cons_append, scan]
    simp only [this, show ¬ ls + (cur + 1) = e by omega, if_false]
    exact ih

/-- The loop finds the last white character before the end. -/
theorem scan_white {ls e : Nat} (w : Char) (word t : List Char) (hw : EditOps.isWhitespace w = true) (hn : ∀ c ∈ word, EditOps.isWhitespace c = false) :
    ∀ (l : List Char) (cur ws : Nat), ls + cur + l.length + 1 + word.length = e → scan ls e (l ++ w :: word ++ t) cur ws = cur + l.length
  | [], cur, ws, he => by
    simp only [List.length_nil] at he
    rw [List.nil_append, List.cons_append, scan]
    simp only [hw, if_true, List.length_nil, Nat.add_zero]
    cases word with
    | nil =>
      simp only [List.length_nil] at he
      rw [if_pos (by omega)]
    | cons d word =>
      simp only [List.length_cons] at he
      rw [if_neg (by omega)]
      exact scan_plain t (d :: word) (cur + 1) cur (by simp) hn (by simp only [List.length_cons]; omega)
  | c :: l, cur, ws, he => by
    simp only [List.length_cons] at he
    have ih := scan_white (ls := ls) (e := e) w word t hw hn l (cur + 1) (if EditOps.isWhitespace c then cur else ws) (by omega)
    rw [List.cons_append, List.cons_append, scan]
    simp only [show ¬ ls + (cur + 1) = e by omega, if_false]
    rw [ih, List.length_cons]
    omega

/-- What replacing an interval does to a text. -/
theorem replace_apply (text x : List Char) {s e : Nat} (h1 : s ≤ e) (h2 : e < text.length) :
    ∃ b, (DeltaBuilder.new text.length).replace s e x = some b ∧ b.build.apply text = some (text.take s ++ x ++ text.drop e) ∧
      (s < e → b.build.asSimpleInsert = none) := by
  have hs : s ≤ text.length := by omega
  have he : e ≤ text.length := by omega
  simp only [DeltaBuilder.replace, DeltaBuilder.delete, DeltaBuilder.new, ge_iff_le, Nat.zero_le, if_true, Option.bind_eq_bind, Option.bind_some,
    Option.pure_def]
  refine ⟨_, rfl, ?_, ?_⟩ <;> rcases Nat.eq_zero_or_pos s with rfl | h0 <;> by_cases hx : x = [] <;>
    simp_all [DeltaBuilder.build, Delta.apply, Delta.applyEl, slice, Delta.asSimpleInsert, Delta.asSimpleInsertTail] <;> try omega

/-- What the plugin does, from the lines before and the part of the line before the mark. -/
theorem capitalize_eq (upper : Char → List Char) {before : List (List Char)} {l : List Char} (post : List Char) (hb : ∀ b ∈ before, '\n' ∉ b)
    (hl : '\n' ∉ l) :
    ∃ h t, linesOf ('!' :: post) = h :: t ∧
      capitalizeWord upper (whole before ++ l ++ '!' :: post) (whole before ++ l).length = (do
        let wordStart := scan (whole before).length (whole before ++ l).length (l ++ h) 0 0
        let word ← slice (l ++ h) wordStart l.length
        let builder ← (DeltaBuilder.new (whole before ++ l ++ '!' :: post).length).replace ((whole before).length + wordStart)
          (whole before ++ l).length (word.flatMap upper)
        return some builder.build) := by
  obtain ⟨h, t, h1, h2⟩ := linesOf_go ('!' :: post) hl
  refine ⟨h, t, h1, ?_⟩
  have e1 : lineOfOffset (whole before ++ l ++ '!' :: post) (whole before ++ l).length = some before.length := by
    rw [lineOfOffset, if_pos (by simp), List.take_left, List.count_append, count_whole hb, List.count_eq_zero.mpr hl]
    rfl
  have e2 : linesOf (whole before ++ l ++ '!' :: post) = before.map (· ++ ['\n']) ++ (l ++ h) :: t := by
    rw [List.append_assoc, linesOf_whole _ hb, h2]
  have e3 : offsetOf (linesOf (whole before ++ l ++ '!' :: post)) before.length = some (whole before).length := by
    rw [offsetOf, e2, if_pos (by simp), List.take_left' (by simp)]
    rfl
  have e4 : (linesOf (whole before ++ l ++ '!' :: post))[before.length]? = some (l ++ h) := by
    rw [e2, List.getElem?_append_right (by simp)]
    simp
  have e5 : (whole before ++ l).length - (whole before).length = l.length := by simp
  simp only [capitalizeWord, e1, e3, e4, e5]

/-- **C110** (words): the word before the mark is capitalised and nothing else changes, if the mark is not at the start of its line. -/
theorem C110_word_partial (upper : Char → List Char) (hu : ∀ c, EditOps.isWhitespace c = true → upper c = [c]) (front word post : List Char)
    (hw : ∀ c ∈ word, EditOps.isWhitespace c = false) (hf : front = [] ∨ ∃ f w, front = f ++ [w] ∧ EditOps.isWhitespace w = true)
    (hl : ∃ f c, front ++ word = f ++ [c] ∧ c ≠ '\n') :
    ∃ d, capitalizeWord upper (front ++ word ++ '!' :: post) (front ++ word).length = some (some d) ∧
      d.apply (front ++ word ++ '!' :: post) = some (front ++ word.flatMap upper ++ '!' :: post) ∧ d.asSimpleInsert = none := by
  have hnw : '\n' ∉ word := fun h => absurd (hw _ h) (by decide)
  obtain ⟨before, l, rfl, hb, hnl⟩ := exists_lines front
  have hn : '\n' ∉ l ++ word := by simp [hnl, hnw]
  obtain ⟨h, t, -, e⟩ := capitalize_eq upper post hb hn
  rw [← List.append_assoc (whole before) l word] at e
  rw [e]
  rcases List.eq_nil_or_concat l with rfl | ⟨l, w, rfl⟩
  · -- the word is at the start of the line
    have hne : word ≠ [] := by
      rintro rfl
      obtain ⟨f, c, h1, h2⟩ := hl
      rcases List.eq_nil_or_concat before with rfl | ⟨bs, b, rfl⟩
      · simp [whole] at h1
      · simp only [whole, List.concat_eq_append, List.map_append, List.map_cons, List.map_nil, List.flatten_append, List.flatten_cons,
          List.flatten_nil, List.append_nil, ← List.append_assoc] at h1
        exact h2 (List.append_inj' h1 rfl |>.2 |> List.cons.inj |>.1).symm
    have hs := scan_plain (ls := (whole before).length) (e := (whole before ++ [] ++ word).length) h word 0 0 hne hw (by simp)
    obtain ⟨b, b1, b2, b3⟩ := replace_apply (whole before ++ [] ++ word ++ '!' :: post) (word.flatMap upper)
      (s := (whole before).length) (e := (whole before ++ [] ++ word).length) (by simp) (by simp)
    refine ⟨b.build, ?_, ?_, b3 ?_⟩
    · simp only [List.nil_append, hs, slice]
      simp only [List.nil_append, Nat.zero_le, List.length_append, Nat.le_add_right, and_self, if_true, Option.bind_eq_bind, Option.bind_some,
        List.drop_zero, List.take_left, Nat.add_zero] at b1 ⊢
      rw [b1]
      rfl
    · rw [b2]
      simp
    · have := List.length_pos_iff.mpr hne
      simp only [List.append_nil, List.length_append]
      omega
  · -- there is a white character before the word
    have hww : EditOps.isWhitespace w = true := by
      rcases hf with h0 | ⟨f, w', h1, h2⟩
      · simp at h0
      · rw [List.concat_eq_append, ← List.append_assoc] at h1
        rwa [(List.append_inj' h1 rfl |>.2 |> List.cons.inj |>.1)]
    simp only [List.concat_eq_append] at *
    have hs := scan_white (ls := (whole before).length) (e := (whole before ++ (l ++ [w]) ++ word).length) w word h hww hw l 0 0
      (by simp only [List.length_append, List.length_cons, List.length_nil]; omega)
    obtain ⟨b, b1, b2, b3⟩ := replace_apply (whole before ++ (l ++ [w]) ++ word ++ '!' :: post) ((w :: word).flatMap upper)
      (s := (whole before).length + l.length) (e := (whole before ++ (l ++ [w]) ++ word).length)
      (by simp only [List.length_append, List.length_cons, List.length_nil]; omega) (by simp)
    have e1 : l ++ [w] ++ word ++ h = l ++ w :: word ++ h := by simp
    have e2 : (l ++ [w] ++ word).length = (l ++ w :: word).length := by simp
    refine ⟨b.build, ?_, ?_, b3 ?_⟩
    · rw [e1, e2]
      simp only [hs, Nat.zero_add]
      have e3 : slice (l ++ w :: word ++ h) l.length (l ++ w :: word).length = some (w :: word) := by
        rw [slice, if_pos ⟨by simp, by simp⟩, List.take_left, List.drop_left]
      rw [e3]
      simp only [Option.bind_eq_bind, Option.bind_some]
      rw [b1]
      rfl
    · rw [b2]
      have e4 : whole before ++ (l ++ [w]) ++ word ++ '!' :: post = (whole before ++ l) ++ (w :: word ++ '!' :: post) := by simp
      rw [List.drop_left, e4, List.take_left' (by simp), List.flatMap_cons, hu w hww]
      simp
    · simp only [List.length_append, List.length_cons, List.length_nil]
      omega

/-- Past the end, the loop goes through the rest of the line. -/
theorem scan_past {ls e : Nat} : ∀ (t : List Char) (cur ws : Nat), e ≤ ls + cur →
    ((∃ c ∈ t, EditOps.isWhitespace c = true) → cur ≤ scan ls e t cur ws) ∧ ((∀ c ∈ t, EditOps.isWhitespace c = false) → scan ls e t cur ws = ws) ∧
      (ws ≤ scan ls e t cur ws ∨ cur ≤ scan ls e t cur ws)
  | [], cur, ws, _ => ⟨by simp, fun _ => rfl, .inl (Nat.le_refl _)⟩
  | c :: t, cur, ws, he => by
    have ih := scan_past (ls := ls) (e := e) t (cur + 1) (if EditOps.isWhitespace c then cur else ws) (by omega)
    rw [scan]
    simp only [show ¬ ls + (cur + 1) = e by omega, if_false]
    cases hc : EditOps.isWhitespace c with
    | true =>
      simp only [hc, if_true] at ih ⊢
      refine ⟨fun _ => by omega, fun h => ?_, .inr (by omega)⟩
      have := h c (by simp)
      simp [hc] at this
    | false =>
      simp only [hc, Bool.false_eq_true, if_false] at ih ⊢
      refine ⟨fun ⟨x, hx, hw⟩ => ?_, fun h => ih.2.1 fun x hx => h x (by simp [hx]), ?_⟩
      · rcases List.mem_cons.mp hx with rfl | hx
        · rw [hc] at hw
          cases hw
        · have := ih.1 ⟨x, hx, hw⟩
          omega
      · omega

/-- A mark at the start of a line makes the plugin panic, if there is anything white later in the line, such as its newline: the loop does not
find the end and goes on to the last white character. -/
theorem C110_start_refuted (upper : Char → List Char) (before : List (List Char)) (hb : ∀ b ∈ before, '\n' ∉ b) (line rest : List Char)
    (hr : '\n' ∉ line) (hw : rest ≠ [] ∨ ∃ c ∈ line, EditOps.isWhitespace c = true) :
    capitalizeWord upper (whole before ++ '!' :: (line ++ (if rest = [] then [] else '\n' :: rest))) (whole before).length = none := by
  obtain ⟨h, t, h1, e⟩ := capitalize_eq upper (l := []) (line ++ (if rest = [] then [] else '\n' :: rest)) hb (by simp)
  simp only [List.append_nil] at e
  rw [e]
  have hh : ∃ h', h = '!' :: h' ∧ ∃ c ∈ h', EditOps.isWhitespace c = true := by
    have hm : '\n' ∉ '!' :: line := by simp [hr]
    by_cases h0 : rest = []
    · simp only [h0, if_true, List.append_nil] at h1
      rw [linesOf_last hm] at h1
      refine ⟨line, (List.cons.inj h1).1.symm, ?_⟩
      rcases hw with hw | hw
      · exact absurd h0 hw
      · exact hw
    · rw [if_neg h0, ← List.cons_append, linesOf_line hm] at h1
      exact ⟨line ++ ['\n'], by simpa using (List.cons.inj h1).1.symm, '\n', by simp, by decide⟩
  obtain ⟨h', rfl, hw'⟩ := hh
  have hs : 1 ≤ scan (whole before).length (whole before).length ('!' :: h') 0 0 := by
    rw [scan]
    simp only [show ¬ (whole before).length + (0 + 1) = (whole before).length by omega, if_false,
      show EditOps.isWhitespace '!' = false by decide, Bool.false_eq_true]
    exact (scan_past h' 1 0 (by omega)).1 hw'
  have : slice ('!' :: h') (scan (whole before).length (whole before).length ('!' :: h') 0 0) 0 = none := by
    rw [slice, if_neg (by omega)]
  simp only [List.nil_append, List.length_nil, this]
  rfl

/-- A mark at the start of the last line, with nothing white after it, changes nothing. -/
theorem C110_last (upper : Char → List Char) (before : List (List Char)) (hb : ∀ b ∈ before, '\n' ∉ b) (line : List Char)
    (hw : ∀ c ∈ line, EditOps.isWhitespace c = false) :
    ∃ d, capitalizeWord upper (whole before ++ '!' :: line) (whole before).length = some (some d) ∧
      d.apply (whole before ++ '!' :: line) = some (whole before ++ '!' :: line) := by
  obtain ⟨h, t, h1, e⟩ := capitalize_eq upper (l := []) line hb (by simp)
  simp only [List.append_nil] at e
  have hn : '\n' ∉ '!' :: line := by
    simp only [List.mem_cons, not_or]
    exact ⟨by decide, fun h => absurd (hw _ h) (by decide)⟩
  rw [linesOf_last hn] at h1
  obtain ⟨rfl, rfl⟩ := List.cons.inj h1
  rw [e]
  have hs : scan (whole before).length (whole before).length ('!' :: line) 0 0 = 0 := by
    refine (scan_past ('!' :: line) 0 0 (by omega)).2.1 ?_
    intro c hc
    rcases List.mem_cons.mp hc with rfl | hc
    · decide
    · exact hw c hc
  obtain ⟨b, b1, b2, -⟩ := replace_apply (whole before ++ '!' :: line) [] (s := (whole before).length) (e := (whole before).length) (by omega) (by simp)
  refine ⟨b.build, ?_, by rw [b2]; simp⟩
  simp only [List.nil_append, List.length_nil, hs, slice]
  simp only [List.length_append, List.length_cons] at b1
  simp [b1]

/-- **C110** (edits): the plugin acts on an edit that inserts a mark and nothing else, at its place, and on no other. -/
theorem C110_place (upper : Char → List Char) (old text : List Char) (d : Delta Char) (hb : d.baseLen = old.length) (ha : d.apply old = some text) :
    (d.asSimpleInsert = some ['!'] → ∃ pre post, old = pre ++ post ∧ text = pre ++ '!' :: post ∧
      update upper text (some d) = capitalizeWord upper text pre.length) ∧
    (d.asSimpleInsert ≠ some ['!'] → update upper text (some d) = some none) ∧ update upper text none = some none := by
  refine ⟨fun hi => ?_, fun hi => ?_, rfl⟩
  · have hu : update upper text (some d) = capitalizeWord upper text d.summary.1.2 := by simp [update, hi]
    obtain ⟨els, n⟩ := d
    simp only at hb
    subst hb
    have key : ∃ p, p ≤ old.length ∧ (Delta.mk els old.length).summary.1.2 = p ∧ text = old.take p ++ '!' :: old.drop p := by
      have tail : ∀ (i : Nat) (els : List (DeltaElement Char)), Delta.asSimpleInsertTail old.length i els = some ['!'] →
          (els = [.insert ['!']] ∧ i = old.length) ∨ (els = [.insert ['!'], .copy i old.length]) := by
        intro i els h
        unfold Delta.asSimpleInsertTail at h
        split at h
        · split at h
          · rename_i h1
            simp only [Option.some.injEq] at h
            exact .inl ⟨by rw [h], h1⟩
          · cases h
        · split at h
          · rename_i h1
            simp only [Option.some.injEq] at h
            exact .inr (by rw [h, h1.1, h1.2])
          · cases h
        · cases h
      unfold Delta.asSimpleInsert at hi
      simp only at hi
      split at hi
      · rename_i b e rest
        split at hi
        · cases hi
        · rename_i hb0
          have hb0 : b = 0 := by simpa using hb0
          subst hb0
          rcases tail e rest hi with ⟨rfl, rfl⟩ | rfl
          · refine ⟨old.length, Nat.le_refl _, by simp [Delta.summary], ?_⟩
            simpa [Delta.apply, Delta.applyEl, slice] using ha.symm
          · by_cases he : e ≤ old.length
            · refine ⟨e, he, by simp [Delta.summary], ?_⟩
              simpa [Delta.apply, Delta.applyEl, slice, he] using ha.symm
            · simp [Delta.apply, Delta.applyEl, slice, he] at ha
      · rcases tail 0 els hi with ⟨rfl, h0⟩ | rfl
        · have : old = [] := List.length_eq_zero_iff.mp h0.symm
          subst this
          refine ⟨0, Nat.le_refl _, by simp [Delta.summary], ?_⟩
          simpa [Delta.apply, Delta.applyEl] using ha.symm
        · refine ⟨0, Nat.zero_le _, by simp [Delta.summary], ?_⟩
          simpa [Delta.apply, Delta.applyEl, slice] using ha.symm
    obtain ⟨p, p1, p2, p3⟩ := key
    refine ⟨old.take p, old.drop p, by simp, p3, ?_⟩
    rw [hu, p2, List.length_take, Nat.min_eq_left p1]
  · simp only [update]
    rw [if_neg]
    intro h
    cases e : d.asSimpleInsert with
    | none => simp [e] at h
    | some x => simp only [e, Option.getD_some] at h; exact hi (by rw [e, h])

/-- **C110** (typing): whoever inserts a mark after a word has the word before it capitalised by the edit that the plugin sends. -/
theorem C110_typed_partial (upper : Char → List Char) (hu : ∀ c, EditOps.isWhitespace c = true → upper c = [c]) (front word post : List Char)
    (hw : ∀ c ∈ word, EditOps.isWhitespace c = false) (hne : word ≠ []) (hf : front = [] ∨ ∃ f w, front = f ++ [w] ∧ EditOps.isWhitespace w = true) :
    ∃ typed sent text, Delta.simpleEdit (front ++ word).length (front ++ word).length ['!'] (front ++ word ++ post).length = some typed ∧
      typed.apply (front ++ word ++ post) = some text ∧ update upper text (some typed) = some (some sent) ∧
      sent.apply text = some (front ++ word.flatMap upper ++ '!' :: post) := by
  obtain ⟨w0, c, rfl⟩ : ∃ w0 c, word = w0 ++ [c] := by
    rcases List.eq_nil_or_concat word with h | ⟨w0, c, h⟩
    · exact absurd h hne
    · exact ⟨w0, c, by simpa using h⟩
  have hc : c ≠ '\n' := by
    rintro rfl
    exact absurd (hw '\n' (by simp)) (by decide)
  obtain ⟨sent, s1, s2, -⟩ := C110_word_partial upper hu front (w0 ++ [c]) post hw hf ⟨front ++ w0, c, by simp, hc⟩
  have hlen : 0 < (front ++ (w0 ++ [c])).length := by
    simp only [List.length_append, List.length_cons]
    omega
  generalize front ++ (w0 ++ [c]) = pre at s1 s2 hlen ⊢
  refine ⟨⟨.copy 0 pre.length :: .insert ['!'] :: (if post = [] then [] else [.copy pre.length (pre ++ post).length]), (pre ++ post).length⟩,
    sent, pre ++ '!' :: post, ?_, ?_, ?_, s2⟩
  · by_cases hp : post = []
    · simp [Delta.simpleEdit, DeltaBuilder.replace, DeltaBuilder.delete, DeltaBuilder.new, DeltaBuilder.build, hlen, hp]
    · have := List.length_pos_iff.mpr hp
      simp [Delta.simpleEdit, DeltaBuilder.replace, DeltaBuilder.delete, DeltaBuilder.new, DeltaBuilder.build, hlen, hp, this]
  · have ht : List.take (pre.length + post.length) (pre ++ post) = pre ++ post := by
      rw [← List.length_append, List.take_length]
    by_cases hp : post = [] <;> simp [Delta.apply, Delta.applyEl, slice, hp, ht]
  · rw [← s1]
    by_cases hp : post = [] <;> simp [update, Delta.summary, Delta.asSimpleInsert, Delta.asSimpleInsertTail, hp]

/-- Non-vacuity: a mark after the second word of the second line. -/
example : ∃ d sent, Delta.simpleEdit 9 9 ['!'] 13 = some d ∧
    update (fun c => [c.toUpper]) "on\nto you! all".toList (some d) = some (some sent) ∧
    sent.apply "on\nto you! all".toList = some "on\nto YOU! all".toList :=
  ⟨⟨[.copy 0 9, .insert ['!'], .copy 9 13], 13⟩, ⟨[.copy 0 5, .insert " YOU".toList, .copy 9 14], 14⟩, by decide +kernel, by decide +kernel,
    by decide +kernel⟩

/-- A mark typed on an empty line, or before anything else on a line that is not the last, ends the plugin. -/
theorem C110_typed_refuted :
    ∃ d, Delta.simpleEdit 0 0 ['!'] "\nyou".length = some d ∧ d.apply "\nyou".toList = some "!\nyou".toList ∧
      update (fun c => [c.toUpper]) "!\nyou".toList (some d) = none :=
  ⟨_, rfl, by decide +kernel, by decide +kernel⟩

end SamplePlugin

end Xi
