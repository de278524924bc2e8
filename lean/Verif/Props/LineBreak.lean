import Verif.Core.LineBreakCursorLemmas

/-!
# C64, C65, C66: where lines may be broken

C64: the class of a character is found, whatever the character, without reading outside of a
table, and the lookup in the text agrees with the lookup by character.  C65: the breaks that
the iterator gives are in order, on character boundaries, never at the start, always at the
end; hard breaks are exactly those after a line end.  C66: the breaks are those that the rules
of UAX #14 ask for.  This is not so for all texts; where it is not is said exactly.
-/

namespace Xi

open Find Unicode Uax14

/-- **C64**: every character has a class, and no table is read out of bounds. -/
theorem C64_class (c : Char) : ∃ p, lbProperty c = some p ∧ p < 43 := lbProperty_some c

/-- **C64**: in a text, at every character, the class and the length of the character are
found. -/
theorem C64_in_text (A B : List Char) (c : Char) :
    ∃ p, lbProperty c = some p ∧
      lbPropertyStr (enc (A ++ c :: B)) (enc A).length = some (p, (String.utf8EncodeChar c).length) := by
  obtain ⟨p, hp, _⟩ := lbProperty_some c
  refine ⟨p, hp, ?_⟩
  rw [enc_append, lbPropertyStr_at rfl]
  unfold cls clen
  rw [hp]; rfl

/-- Some of the tests of the crate. -/
example : lbProperty '\x01' = some 9 ∧ lbProperty 'U' = some 2 ∧ lbPropertyStr (enc ['a', '一', 'b']) 1 = some (14, 3) ∧
    lbPropertyStr (enc ['😀', 'b']) 0 = some (14, 4) := by decide +kernel

namespace Unicode

theorem breaksBy_ge {act : List Nat → Nat → Action} : ∀ (cs : List Char) (h : List Nat) (pos : Nat), ∀ b ∈ breaksBy act h pos cs, pos ≤ b.1 := by
  intro cs
  induction cs with
  | nil => intro h pos b hb; simp [breaksBy] at hb; simp [hb]
  | cons c cs ih =>
    intro h pos b hb
    rw [breaksBy] at hb
    have key : ∀ b ∈ breaksBy act (cls c :: h) (pos + clen c) cs, pos ≤ b.1 := fun b hb => by
      have := ih _ _ b hb; omega
    split at hb
    · rcases List.mem_cons.1 hb with rfl | hb
      · exact Nat.le_refl _
      · exact key b hb
    · rcases List.mem_cons.1 hb with rfl | hb
      · exact Nat.le_refl _
      · exact key b hb
    · exact key b hb

/-- The breaks at a position inside of the text. -/
theorem breaksBy_mem {act : List Nat → Nat → Action} {c : Char} {B : List Char} : ∀ (A : List Char) (h : List Nat) (pos : Nat) (b : Bool),
    (pos + (enc A).length, b) ∈ breaksBy act h pos (A ++ c :: B) ↔ act (historyOf A ++ h) (cls c) = if b then .hard else .soft := by
  intro A
  induction A with
  | nil =>
    intro h pos b
    have hno : ∀ b, (pos, b) ∉ breaksBy act (cls c :: h) (pos + clen c) B := fun b hb => by
      have := breaksBy_ge B _ _ _ hb
      have := clen_pos c
      simp only at *; omega
    show (pos + 0, b) ∈ breaksBy act h pos (c :: B) ↔ act ([] ++ h) (cls c) = _
    rw [Nat.add_zero, List.nil_append, breaksBy]
    cases ha : act h (cls c) <;> cases b <;> simp [hno]
  | cons a A ih =>
    intro h pos b
    have e1 : pos + (enc (a :: A)).length = pos + clen a + (enc A).length := by
      rw [enc_cons, List.length_append]; unfold clen; omega
    have hne : ∀ b', (pos + (enc (a :: A)).length, b) ≠ (pos, b') := by
      intro b' e
      have := clen_pos a
      injection e with e _; omega
    have e2 : historyOf (a :: A) ++ h = historyOf A ++ cls a :: h := by simp [historyOf]
    rw [e2, ← ih (cls a :: h) (pos + clen a) b, ← e1, List.cons_append, breaksBy]
    split
    · rw [List.mem_cons]; exact ⟨fun h => h.resolve_left (hne _), Or.inr⟩
    · rw [List.mem_cons]; exact ⟨fun h => h.resolve_left (hne _), Or.inr⟩
    · rfl

/-- The same from the start of a text. -/
theorem breaksOf_mem {act : List Nat → Nat → Action} {A B : List Char} (hA : A ≠ []) (c : Char) (b : Bool) :
    ((enc A).length, b) ∈ breaksOf act (A ++ c :: B) ↔ act (historyOf A) (cls c) = if b then .hard else .soft := by
  cases A with
  | nil => exact absurd rfl hA
  | cons a A =>
    have := breaksBy_mem (act := act) (c := c) (B := B) A [cls a] (clen a) b
    rw [show (enc (a :: A)).length = clen a + (enc A).length by rw [enc_cons, List.length_append]; rfl,
      show historyOf (a :: A) = historyOf A ++ [cls a] by simp [historyOf]]
    exact this

/-- The breaks are in order. -/
theorem breaksBy_sorted {act : List Nat → Nat → Action} : ∀ (cs : List Char) (h : List Nat) (pos : Nat),
    (breaksBy act h pos cs).Pairwise (fun a b => a.1 < b.1) := by
  intro cs
  induction cs with
  | nil => intro h pos; simp [breaksBy]
  | cons c cs ih =>
    intro h pos
    have hlt : ∀ b ∈ breaksBy act (cls c :: h) (pos + clen c) cs, pos < b.1 := fun b hb => by
      have := breaksBy_ge cs _ _ b hb
      have := clen_pos c
      omega
    rw [breaksBy]
    split
    · exact List.pairwise_cons.2 ⟨hlt, ih _ _⟩
    · exact List.pairwise_cons.2 ⟨hlt, ih _ _⟩
    · exact ih _ _

/-- The last break is at the end. -/
theorem breaksBy_last {act : List Nat → Nat → Action} : ∀ (cs : List Char) (h : List Nat) (pos : Nat), h ≠ [] →
    (breaksBy act h pos cs).getLast? = some (pos + (enc cs).length, decide ((historyOf cs ++ h).headD 0 ∈ lineEnds)) := by
  intro cs
  induction cs with
  | nil => intro h pos _; simp [breaksBy, enc, historyOf]
  | cons c cs ih =>
    intro h pos hne
    have := ih (cls c :: h) (pos + clen c) (by simp)
    have e1 : pos + clen c + (enc cs).length = pos + (enc (c :: cs)).length := by
      rw [enc_cons, List.length_append]; unfold clen; omega
    rw [e1, show historyOf cs ++ cls c :: h = historyOf (c :: cs) ++ h by simp [historyOf]] at this
    rw [breaksBy]
    split
    · rw [List.getLast?_cons, this]; rfl
    · rw [List.getLast?_cons, this]; rfl
    · exact this

/-- The breaks are on character boundaries. -/
theorem breaksBy_boundary {act : List Nat → Nat → Action} : ∀ (cs A : List Char) (h : List Nat), ∀ b ∈ breaksBy act h (enc A).length cs,
    ∃ X Y, A ++ cs = X ++ Y ∧ b.1 = (enc X).length := by
  intro cs
  induction cs with
  | nil => intro A h b hb; rw [breaksBy, List.mem_singleton] at hb; exact ⟨A, [], by simp, by rw [hb]⟩
  | cons c cs ih =>
    intro A h b hb
    have key : ∀ b ∈ breaksBy act (cls c :: h) ((enc A).length + clen c) cs, ∃ X Y, A ++ c :: cs = X ++ Y ∧ b.1 = (enc X).length := by
      intro b hb
      have e : (enc A).length + clen c = (enc (A ++ [c])).length := by rw [enc_append, List.length_append]; simp [enc, clen]
      rw [e] at hb
      obtain ⟨X, Y, h1, h2⟩ := ih _ _ b hb
      exact ⟨X, Y, by rw [← h1]; simp, h2⟩
    rw [breaksBy] at hb
    split at hb
    · rcases List.mem_cons.1 hb with rfl | hb
      · exact ⟨A, c :: cs, rfl, rfl⟩
      · exact key b hb
    · rcases List.mem_cons.1 hb with rfl | hb
      · exact ⟨A, c :: cs, rfl, rfl⟩
      · exact key b hb
    · exact key b hb

theorem historyOf_ok {A : List Char} (h : A ≠ []) : History (historyOf A) := by
  refine ⟨by simpa [historyOf] using h, fun x hx => ?_⟩
  simp only [historyOf, List.mem_reverse, List.mem_map] at hx
  obtain ⟨c, _, rfl⟩ := hx
  exact cls_lt c

theorem historyOf_snoc (A : List Char) (c : Char) : historyOf (A ++ [c]) = cls c :: historyOf A := by simp [historyOf]

end Unicode

/-- **C65**: the iterator never panics and always ends, for every text.  The breaks that it
gives are in order, after the start of the text and on character boundaries. -/
theorem C65_breaks (cs : List Char) : ∃ bs, lineBreaks (enc cs) = some bs ∧ bs.Pairwise (fun a b => a.1 < b.1) ∧
    ∀ b ∈ bs, 0 < b.1 ∧ CharBoundary (enc cs) b.1 := by
  refine ⟨_, lineBreaks_spec cs, ?_, ?_⟩
  · cases cs with
    | nil => exact .nil
    | cons c cs => exact breaksBy_sorted _ _ _
  · intro b hb
    cases cs with
    | nil => simp [breaksOf] at hb
    | cons c cs =>
      have h1 := breaksBy_ge _ _ _ b hb
      have h2 := clen_pos c
      refine ⟨by omega, ?_⟩
      obtain ⟨X, Y, e, he⟩ := breaksBy_boundary cs [c] [cls c] b (by
        have : (enc [c]).length = clen c := by simp [enc, clen]
        rw [this]; exact hb)
      exact ⟨X, Y, by rw [← enc_append, ← e]; rfl, he⟩

/-- **C65**: there is no break in an empty text, and always one at the end of another; it is
hard if the last character ends a line. -/
theorem C65_end (cs : List Char) : ∃ bs, lineBreaks (enc cs) = some bs ∧
    bs.getLast? = cs.getLast?.map (fun c => ((enc cs).length, decide (lbProperty c ∈ [some BK, some CR, some LF, some NL]))) := by
  refine ⟨_, lineBreaks_spec cs, ?_⟩
  cases cs with
  | nil => rfl
  | cons c cs =>
    show (breaksBy machineAct [cls c] (clen c) cs).getLast? = _
    rw [breaksBy_last _ _ _ (by simp)]
    have e1 : clen c + (enc cs).length = (enc (c :: cs)).length := by rw [enc_cons, List.length_append]; rfl
    rw [e1]
    obtain ⟨A, x, hx⟩ : ∃ A x, c :: cs = A ++ [x] := by
      rcases List.eq_nil_or_concat (c :: cs) with h | ⟨A, x, h⟩
      · simp at h
      · exact ⟨A, x, by rw [h, List.concat_eq_append]⟩
    have e2 : (historyOf cs ++ [cls c]) = cls x :: historyOf A := by
      rw [← historyOf_snoc, ← hx]; simp [historyOf]
    rw [e2, hx]
    obtain ⟨p, hp, _⟩ := lbProperty_some x
    simp [cls, hp, lineEnds]

/-- **C65**: a break inside of the text is hard exactly if it is after a line end (classes BK,
CR, LF and NL) and not between CR and LF. -/
theorem C65_hard (A B : List Char) (a c : Char) : ∃ bs, lineBreaks (enc (A ++ a :: c :: B)) = some bs ∧
    (((enc (A ++ [a])).length, true) ∈ bs ↔
      lbProperty a ∈ [some BK, some CR, some LF, some NL] ∧ ¬ (lbProperty a = some CR ∧ lbProperty c = some LF)) := by
  refine ⟨_, lineBreaks_spec _, ?_⟩
  rw [show A ++ a :: c :: B = (A ++ [a]) ++ c :: B by simp, breaksOf_mem (by simp)]
  have hh := historyOf_ok (A := A ++ [a]) (by simp)
  obtain ⟨v, hv, ha, _⟩ := hh.machine (cls_lt c)
  rw [ha]
  rw [historyOf_snoc] at hv hh
  have h1 := stateAfter_end hh.2
  have h2 := (machine_line_end (cls_lt c) hv).2.2
  have h3 : (actionOf v = if true = true then Action.hard else .soft) ↔ 0xc0 ≤ v := by
    unfold actionOf
    repeat' split
    all_goals simp_all
  rw [h3, h2]
  obtain ⟨p, hp, _⟩ := lbProperty_some a
  obtain ⟨q, hq, _⟩ := lbProperty_some c
  have ep : cls a = p := by unfold cls; rw [hp]; rfl
  have eq : cls c = q := by unfold cls; rw [hq]; rfl
  have e : lbProperty a ∈ [some BK, some CR, some LF, some NL] ↔ cls a ∈ lineEnds := by rw [hp, ep]; simp [lineEnds]
  rw [e, h1.1, hp, hq, eq]
  constructor
  · intro ⟨h4, h5⟩
    refine ⟨h4, fun ⟨h6, h7⟩ => h5 ⟨?_, by simpa using h7⟩⟩
    rw [h1.2 h4, ep]; simpa using h6
  · intro ⟨h4, h5⟩
    refine ⟨h4, fun ⟨h6, h7⟩ => h5 ⟨?_, by rw [h7]⟩⟩
    rw [h1.2 h4, ep] at h6; rw [h6]

/-- **C66** in part: at every position inside of the text the iterator breaks as the rules of
UAX #14 say.  Missing: positions after a space that confuses the machine (`Steady`), and the
three kinds of positions of `Features.odd`.  In these the rules are violated; see the
refutations below. -/
theorem C66_rules_partial (A B : List Char) (c : Char) (hA : A ≠ []) (hs : Steady (historyOf A))
    (ho : (features ((historyOf A).map lb1)).odd (lb1 (cls c)) = false) (b : Bool) :
    ∃ bs, lineBreaks (enc (A ++ c :: B)) = some bs ∧
    (((enc A).length, b) ∈ bs ↔ action (historyOf A) (cls c) = if b then .hard else .soft) := by
  refine ⟨_, lineBreaks_spec _, ?_⟩
  rw [breaksOf_mem hA]
  have hh := historyOf_ok hA
  obtain ⟨v, hv, ha, _⟩ := hh.machine (cls_lt c)
  have hf := seen_stateAfter hh.1 hh.2 hs
  obtain ⟨w, hw, h1, _⟩ := check_step hf (cls_lt c)
  rw [hv] at hw
  injection hw with hw
  subst hw
  rw [ha]
  rcases h1 with h1 | h1
  · rw [h1] at ho; exact absurd ho (by simp)
  · unfold action; rw [h1]

/-- A text in which the machine is never led astray. -/
def Uax14.Plain : List Nat → List Nat → Prop
  | _, [] => True
  | h, x :: r => (features (h.map lb1)).odd (lb1 x) = false ∧ (features (h.map lb1)).confusing (lb1 x) = false ∧ Plain (x :: h) r

/-- By the rules and by the machine. -/
theorem Unicode.breaksBy_plain : ∀ (cs : List Char) (h : List Nat) (pos : Nat), History h → Steady h → Plain h (cs.map cls) →
    breaksBy machineAct h pos cs = breaksBy action h pos cs := by
  intro cs
  induction cs with
  | nil => intro h pos _ _ _; rfl
  | cons c cs ih =>
    intro h pos hh hs hp
    obtain ⟨h1, h2, h3⟩ := hp
    obtain ⟨v, hv, ha, _⟩ := hh.machine (cls_lt c)
    obtain ⟨w, hw, h4, _⟩ := check_step (seen_stateAfter hh.1 hh.2 hs) (cls_lt c)
    rw [hv] at hw
    injection hw with hw
    subst hw
    have e : machineAct h (cls c) = action h (cls c) := by
      rw [ha]
      rcases h4 with h4 | h4
      · rw [h4] at h1; exact absurd h1 (by simp)
      · exact h4
    have := ih (cls c :: h) (pos + clen c) (hh.cons c) ((Steady.cons hh.1).2 ⟨h2, hs⟩) h3
    rw [breaksBy, breaksBy, e, this]

/-- **C66** in part: in a text without the sequences that lead the machine astray, the breaks
are exactly those of the rules, the last being at the end. -/
theorem C66_text_partial (c : Char) (cs : List Char) (hp : Plain [cls c] (cs.map cls)) :
    lineBreaks (enc (c :: cs)) = some (breaksBy action [cls c] (clen c) cs) := by
  rw [lineBreaks_spec]
  exact congrArg some (breaksBy_plain cs [cls c] (clen c) (History.one c) trivial hp)

/-- An example: words, spaces, brackets, numbers and a line end. -/
example : lineBreaks (enc "Hi (you) 3.5%\nok".toList) = some [(3, false), (9, false), (14, true), (16, false)] ∧
    breaksBy action [cls 'H'] 1 "i (you) 3.5%\nok".toList = [(3, false), (9, false), (14, true), (16, false)] := by decide +kernel

example : Plain [cls 'H'] ("i (you) 3.5%\nok".toList.map cls) := by
  simp only [show [cls 'H'] = [2] by decide +kernel, show "i (you) 3.5%\nok".toList.map cls = [2, 26, 20, 2, 2, 2, 36, 26, 19, 16, 19, 21, 17, 2, 2] by decide +kernel]
  repeat' apply And.intro
  all_goals first | decide | trivial

/-- **C66** does not hold of all texts: a family of emoji is broken after the joiner, against
LB8a. -/
theorem C66_refuted : lineBreaks (enc ['👨', '\u200D', '👩']) = some [(7, false), (11, false)] ∧
    action [cls '\u200D', cls '👨'] (cls '👩') = .no := by decide +kernel

/-- **C66**: a closing brace is parted from a dollar sign, against LB25. -/
theorem C66_refuted_close : lineBreaks (enc ['}', '$']) = some [(1, false), (2, false)] ∧
    action [cls '}'] (cls '$') = .no := by decide +kernel

/-- **C66**: two spaces after an opening bracket permit a break, against LB14; with one space
there is none. -/
theorem C66_refuted_open : lineBreaks (enc ['(', ' ', ' ', 'a']) = some [(3, false), (4, false)] ∧
    action [cls ' ', cls ' ', cls '('] (cls 'a') = .no ∧
    lineBreaks (enc ['(', ' ', 'a']) = some [(3, false)] := by decide +kernel

/-- **C66**: after a Hebrew letter, a hyphen and a space there should be a break (LB18). -/
theorem C66_refuted_hebrew : lineBreaks (enc ['\u05D0', '-', ' ', 'a']) = some [(5, false)] ∧
    action [cls ' ', cls '-', cls '\u05D0'] (cls 'a') = .soft := by decide +kernel

end Xi
