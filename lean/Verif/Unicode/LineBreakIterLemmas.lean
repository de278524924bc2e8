import Verif.Unicode.Uax14Lemmas

/-!
# Lemmas on the line breaking iterators
-/

namespace Xi

namespace Unicode

open Find Uax14

/-- The class of a character. -/
def cls (c : Char) : Nat := (lbProperty c).getD 0

/-- The length of a character in bytes. -/
def clen (c : Char) : Nat := (String.utf8EncodeChar c).length

theorem clen_pos (c : Char) : 0 < clen c := by
  have := enc_pos (a := [c]) (by simp)
  simpa [enc, clen] using this

/-- Classes are in range. -/
theorem cls_lt (c : Char) : cls c < 43 := by
  obtain ⟨p, hp, h⟩ := lbProperty_some c
  unfold cls; rw [hp]; exact h

/-- Looking up the class in the text. -/
theorem lbPropertyStr_at {s : List UInt8} {A B : List Char} {c : Char} (hs : s = enc A ++ enc (c :: B)) :
    lbPropertyStr s (enc A).length = some (cls c, clen c) := by
  rw [hs, enc_cons, lbPropertyStr_spec]
  obtain ⟨p, hp, h⟩ := lbProperty_some c
  unfold cls clen
  rw [hp]; rfl

/-- The breaks that come of deciding at every position, from the classes before, the latest
first, and the class after.  At the end there is always a break; it is hard after a line end. -/
def breaksBy (act : List Nat → Nat → Action) : List Nat → Nat → List Char → List (Nat × Bool)
  | h, pos, [] => [(pos, decide (h.headD 0 ∈ lineEnds))]
  | h, pos, c :: cs =>
    match act h (cls c) with
    | .hard => (pos, true) :: breaksBy act (cls c :: h) (pos + clen c) cs
    | .soft => (pos, false) :: breaksBy act (cls c :: h) (pos + clen c) cs
    | .no => breaksBy act (cls c :: h) (pos + clen c) cs

/-- What the machine decides. -/
def machineAct (h : List Nat) (x : Nat) : Action := actionOf ((machine (stateAfter h) x).getD 0)

/-- A history of classes. -/
def History (h : List Nat) : Prop := h ≠ [] ∧ ∀ x ∈ h, x < 43

theorem History.cons {h : List Nat} (hh : History h) (c : Char) : History (cls c :: h) :=
  ⟨by simp, fun x hx => by rcases List.mem_cons.1 hx with rfl | hx; exact cls_lt c; exact hh.2 x hx⟩

theorem History.one (c : Char) : History [cls c] :=
  ⟨by simp, fun x hx => by rw [List.mem_singleton.1 hx]; exact cls_lt c⟩

/-- The machine answers. -/
theorem History.machine {h : List Nat} (hh : History h) {x : Nat} (hx : x < 43) : ∃ v, machine (stateAfter h) x = some v ∧
    machineAct h x = actionOf v ∧ stateAfter (x :: h) = stateOf v := by
  obtain ⟨v, hv, _⟩ := machine_some (stateAfter_lt hh.2) hx
  exact ⟨v, hv, by unfold machineAct; rw [hv]; rfl, by rw [stateAfter_cons hh.1, hv]; rfl⟩

/-- Whether the machine finds the end to be a hard break. -/
theorem History.at_end {h : List Nat} (hh : History h) : ∃ v, Unicode.machine (stateAfter h) 0 = some v ∧
    decide (0xc0 ≤ v) = decide (h.headD 0 ∈ lineEnds) := by
  obtain ⟨v, hv, _⟩ := machine_some (stateAfter_lt hh.2) (x := 0) (by decide)
  refine ⟨v, hv, ?_⟩
  have h3 := (machine_line_end (by decide) hv).2.2
  obtain ⟨y, h, rfl⟩ : ∃ y h', h = y :: h' := by
    cases h with
    | nil => exact absurd rfl hh.1
    | cons y h => exact ⟨y, h, rfl⟩
  have h1 := (stateAfter_end hh.2).1
  rw [List.headD_cons, decide_eq_decide, h3, h1]
  exact ⟨fun h => h.1, fun h => ⟨h, fun e => absurd e.2 (by decide)⟩⟩

/-- What is left to do for the iterator: the characters `cs` after the position. -/
def Pending (s : List UInt8) (it : LineBreakIterator) (h : List Nat) (cs : List Char) : Prop :=
  it.s = s ∧ it.state = stateAfter h ∧ History h ∧ ∃ A, s = enc A ++ enc cs ∧ it.ix = (enc A).length

/-- One call of `next`. -/
theorem iter_next {s : List UInt8} : ∀ (cs : List Char) (fuel : Nat) {it : LineBreakIterator} {h : List Nat}, Pending s it h cs → cs.length < fuel →
    ∃ it' b, it.next fuel = some (it', some b) ∧
      ((it'.s = s ∧ s.length < it'.ix ∧ breaksBy machineAct h it.ix cs = [b]) ∨
       ∃ h' cs', Pending s it' h' cs' ∧ cs'.length < cs.length ∧
        breaksBy machineAct h it.ix cs = b :: breaksBy machineAct h' it'.ix cs') := by
  intro cs
  induction cs with
  | nil =>
    intro fuel it h hp hf
    obtain ⟨fuel, rfl⟩ : ∃ n, fuel = n + 1 := ⟨fuel - 1, by simp at hf; omega⟩
    obtain ⟨h1, h2, h3, A, h4, h5⟩ := hp
    have hl : it.ix = s.length := by rw [h4, h5]; simp [enc]
    unfold LineBreakIterator.next
    rw [h1, if_neg (by omega), if_pos hl, h2]
    obtain ⟨v, hv, hd⟩ := h3.at_end
    rw [hv]
    exact ⟨_, _, rfl, Or.inl ⟨rfl, by show s.length < it.ix + 1; omega, by rw [breaksBy, hd, hl]⟩⟩
  | cons c cs ih =>
    intro fuel it h hp hf
    obtain ⟨fuel, rfl⟩ : ∃ n, fuel = n + 1 := ⟨fuel - 1, by simp at hf; omega⟩
    obtain ⟨h1, h2, h3, A, h4, h5⟩ := hp
    have hl : it.ix < s.length := by
      have := enc_pos (a := c :: cs) (by simp)
      rw [h4, h5, List.length_append]; omega
    unfold LineBreakIterator.next
    rw [h1, if_neg (by omega), if_neg (by omega), h2, h5, lbPropertyStr_at h4]
    simp only [Option.bind_eq_bind, Option.bind_some]
    obtain ⟨v, hv, ha, hst⟩ := h3.machine (cls_lt c)
    rw [hv]
    simp only [Option.bind_some]
    have hnew : ∀ st, st = stateOf v → Pending s ⟨s, (enc A).length + clen c, st⟩ (cls c :: h) cs := by
      intro st hs
      refine ⟨rfl, by rw [hst]; exact hs, h3.cons c, A ++ [c], by rw [h4, enc_append, enc_cons]; simp [enc], ?_⟩
      rw [enc_append, List.length_append]; simp [enc, clen]
    by_cases hb : 0x80 ≤ v
    · rw [if_pos hb]
      refine ⟨_, _, rfl, Or.inr ⟨cls c :: h, cs, hnew _ (by unfold stateOf; rw [if_pos hb]), by simp, ?_⟩⟩
      rw [breaksBy, ha]
      unfold actionOf
      by_cases hh : 0xc0 ≤ v
      · simp only [hh, if_true, decide_true]
      · simp only [hh, hb, if_true, if_false, decide_false]
    · rw [if_neg hb]
      have hp' := hnew v (by unfold stateOf; rw [if_neg hb])
      obtain ⟨it', b, e, hr⟩ := ih fuel hp' (by simp at hf; omega)
      have hbk : breaksBy machineAct h (enc A).length (c :: cs) = breaksBy machineAct (cls c :: h) ((enc A).length + clen c) cs := by
        rw [breaksBy, ha]
        unfold actionOf
        have : ¬ 0xc0 ≤ v := by omega
        simp only [this, hb, if_false]
      refine ⟨it', b, e, ?_⟩
      rw [hbk]
      rcases hr with hr | ⟨h', cs', e1, e2, e3⟩
      · exact Or.inl hr
      · exact Or.inr ⟨h', cs', e1, by simp; omega, e3⟩

/-- When there is nothing left. -/
theorem collect_done {s : List UInt8} {it : LineBreakIterator} {fuel : Nat} (h1 : it.s = s) (h2 : s.length < it.ix) (hf : 0 < fuel) :
    it.collect fuel = some [] := by
  obtain ⟨fuel, rfl⟩ : ∃ n, fuel = n + 1 := ⟨fuel - 1, by omega⟩
  unfold LineBreakIterator.collect LineBreakIterator.next
  rw [if_pos (by rw [h1]; exact h2)]
  rfl

/-- All items of the iterator. -/
theorem collect_spec {s : List UInt8} : ∀ (n fuel : Nat) {cs : List Char} {it : LineBreakIterator} {h : List Nat}, cs.length ≤ n → Pending s it h cs →
    n + 1 < fuel → cs.length ≤ s.length → it.collect fuel = some (breaksBy machineAct h it.ix cs) := by
  intro n
  induction n with
  | zero =>
    intro fuel cs it h hn hp hf hc
    obtain ⟨fuel, rfl⟩ : ∃ n, fuel = n + 1 := ⟨fuel - 1, by omega⟩
    obtain ⟨it', b, e, hr⟩ := iter_next cs (it.s.length + 2) hp (by rw [hp.1]; omega)
    rcases hr with ⟨e1, e2, e3⟩ | ⟨h', cs', e1, e2, e3⟩
    · unfold LineBreakIterator.collect
      rw [e]
      simp only [Option.bind_eq_bind, Option.bind_some]
      rw [collect_done e1 e2 (by omega), e3]; rfl
    · omega
  | succ n ih =>
    intro fuel cs it h hn hp hf hc
    obtain ⟨fuel, rfl⟩ : ∃ n, fuel = n + 1 := ⟨fuel - 1, by omega⟩
    obtain ⟨it', b, e, hr⟩ := iter_next cs (it.s.length + 2) hp (by rw [hp.1]; omega)
    unfold LineBreakIterator.collect
    rw [e]
    simp only [Option.bind_eq_bind, Option.bind_some]
    rcases hr with ⟨e1, e2, e3⟩ | ⟨h', cs', e1, e2, e3⟩
    · rw [collect_done e1 e2 (by omega), e3]; rfl
    · rw [ih fuel (by omega) e1 (by omega) (by omega), e3]; rfl

/-- The breaks of a text. -/
def breaksOf (act : List Nat → Nat → Action) : List Char → List (Nat × Bool)
  | [] => []
  | c :: cs => breaksBy act [cls c] (clen c) cs

/-- The iterator gives the breaks that the machine decides on. -/
theorem lineBreaks_spec (cs : List Char) : lineBreaks (enc cs) = some (breaksOf machineAct cs) := by
  cases cs with
  | nil => rfl
  | cons c cs =>
    unfold lineBreaks LineBreakIterator.new
    have hp := enc_pos (a := c :: cs) (by simp)
    rw [if_neg (by simp only [List.isEmpty_iff]; intro e; rw [e] at hp; simp at hp)]
    have := lbPropertyStr_at (s := enc (c :: cs)) (A := []) (B := cs) (c := c) (by simp [enc])
    rw [show (enc []).length = 0 from rfl] at this
    rw [this]
    have hpend : Pending (enc (c :: cs)) ⟨enc (c :: cs), clen c, cls c⟩ [cls c] cs :=
      ⟨rfl, rfl, .one c, [c], by rw [enc_cons]; simp [enc], by simp [enc, clen]⟩
    have hle := length_le_enc (c :: cs)
    simp only [List.length_cons] at hle
    exact collect_spec cs.length _ (Nat.le_refl _) hpend (by omega) (by omega)

end Unicode

end Xi
