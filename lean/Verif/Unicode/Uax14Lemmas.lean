import Verif.Spec.Uax14
import Verif.Unicode.LineBreakLemmas

/-!
# The state machine and the rules of UAX #14
-/

namespace Xi

namespace Uax14

open Unicode

/-- How what the rules look at changes with a character. -/
def Features.step (f : Features) (x : Nat) : Features :=
  if x = CM ∨ x = ZWJ then
    if f.last ∈ noMarks then ⟨AL, AL, false, false, x == ZWJ, false⟩
    else ⟨f.last, f.beforeSpaces, f.hebrewHyphen, f.oddIndicators, x == ZWJ, false⟩
  else if x = SP then ⟨SP, f.beforeSpaces, false, false, false, f.zeroWidth⟩
  else ⟨x, x, f.last == HL && (x == HY || x == BA), x == RI && !f.oddIndicators, false, x == ZW⟩

/-- What the rules look at after a single character. -/
def Features.first (x : Nat) : Features :=
  if x = CM ∨ x = ZWJ then ⟨AL, AL, false, false, x == ZWJ, false⟩
  else if x = SP then ⟨SP, 0, false, false, false, false⟩
  else ⟨x, x, false, x == RI, false, x == ZW⟩

/-- A history that is not empty stays so when marks are dropped. -/
theorem resolve_ne_nil : ∀ {h : List Nat}, h ≠ [] → resolve h ≠ [] := by
  intro h hne
  cases h with
  | nil => exact absurd rfl hne
  | cons x h =>
    unfold resolve
    split
    · split
      · simp
      · split <;> simp
    · simp

/-- The first character. -/
theorem features_one (x : Nat) : features [x] = .first x := by
  unfold features Features.first resolve
  by_cases h1 : x = CM ∨ x = ZWJ
  · simp only [if_pos h1, resolve]
    rcases h1 with rfl | rfl <;> decide
  · rw [if_neg h1, if_neg h1]
    by_cases h2 : x = SP
    · subst h2; rw [if_pos rfl]; decide
    · rw [if_neg h2]
      have h3 : (x == SP) = false := by simpa using h2
      have h4 : (some x == some ZWJ) = false := by simp; intro e; exact h1 (Or.inr e)
      simp only [resolve, List.headD_cons, List.dropWhile_cons, h3, List.takeWhile_cons, isHebrewHyphen, List.head?_cons, h4, List.takeWhile_nil,
        Features.mk.injEq, true_and, and_true, Bool.false_eq_true, if_false]
      constructor
      · by_cases e : x = RI
        · subst e; decide
        · have : (x == RI) = false := by simpa using e
          rw [this]; simp
      · by_cases e : x = ZW <;> simp [e]

/-- Another character. -/
theorem features_cons {h : List Nat} (hne : h ≠ []) (x : Nat) : features (x :: h) = (features h).step x := by
  have hr := resolve_ne_nil hne
  obtain ⟨y, r, hy⟩ : ∃ y r, resolve h = y :: r := by
    cases e : resolve h with
    | nil => exact absurd e hr
    | cons y r => exact ⟨y, r, rfl⟩
  unfold Features.step
  by_cases h1 : x = CM ∨ x = ZWJ
  · rw [if_pos h1]
    have hx1 : (x == SP) = false := by rcases h1 with rfl | rfl <;> rfl
    have hx2 : (some x == some ZW) = false := by rcases h1 with rfl | rfl <;> rfl
    have hj : (some x == some ZWJ) = (x == ZWJ) := by simp
    have e : (features h).last = y := by unfold features; rw [hy]; rfl
    rw [e]
    split
    · rename_i hm
      have : resolve (x :: h) = AL :: y :: r := by
        rw [resolve, if_pos h1, hy]; exact if_pos hm
      unfold features
      rw [this]
      simp only [List.headD_cons, List.dropWhile_cons, List.takeWhile_cons, isHebrewHyphen, List.head?_cons, hx1, hx2, hj]
      simp [AL, SP, HY, BA, RI]
      rcases h1 with rfl | rfl <;> decide
    · rename_i hm
      have : resolve (x :: h) = y :: r := by
        rw [resolve, if_pos h1, hy]; exact if_neg hm
      unfold features
      rw [this, hy]
      simp only [List.headD_cons, List.dropWhile_cons (x := x), List.head?_cons, hx1, hx2, hj, Bool.false_eq_true, if_false]
  · rw [if_neg h1]
    have hrx : resolve (x :: h) = x :: resolve h := by rw [resolve, if_neg h1]
    have hj : (some x == some ZWJ) = false := by simp; intro e; exact h1 (Or.inr e)
    by_cases h2 : x = SP
    · subst h2
      rw [if_pos rfl]
      unfold features
      rw [hrx, hy]
      simp [isHebrewHyphen, SP, HY, BA, RI, ZWJ]
    · rw [if_neg h2]
      have h3 : (x == SP) = false := by simpa using h2
      unfold features
      rw [hrx, hy]
      simp only [List.headD_cons, List.dropWhile_cons (x := x), h3, List.takeWhile_cons (a := x), isHebrewHyphen, List.head?_cons, hj, Bool.false_eq_true, if_false,
        Features.mk.injEq, true_and]
      refine ⟨?_, ?_, ?_⟩
      · by_cases e1 : y = HL <;> by_cases e2 : x = HY <;> by_cases e3 : x = BA <;> simp_all
      · by_cases e : x = RI
        · subst e
          simp only [beq_self_eq_true, if_true, List.length_cons, Bool.true_and]
          generalize (List.takeWhile (fun x => x == RI) (y :: r)).length = n
          by_cases h : n % 2 = 1 <;> simp [h] <;> omega
        · have : (x == RI) = false := by simpa using e
          rw [this]; simp
      · by_cases e : x = ZW <;> simp [e]

/-- What the rules may look at in each state of the machine, as long as no space has
confused it. -/
def seenIn : List (List Features) := [
  /- 0 -/ [⟨2, 2, false, false, false, false⟩, ⟨2, 2, false, false, true, false⟩],
  /- 1 -/ [⟨2, 2, false, false, false, false⟩, ⟨2, 2, false, false, true, false⟩],
  /- 2 -/ [⟨2, 2, false, false, false, false⟩, ⟨2, 2, false, false, true, false⟩],
  /- 3 -/ [⟨3, 3, false, false, false, false⟩, ⟨3, 3, false, false, true, false⟩],
  /- 4 -/ [⟨4, 4, false, false, false, false⟩, ⟨4, 4, false, false, true, false⟩],
  /- 5 -/ [⟨5, 5, false, false, false, false⟩, ⟨5, 5, false, false, true, false⟩],
  /- 6 -/ [⟨6, 6, false, false, false, false⟩],
  /- 7 -/ [⟨7, 7, false, false, false, false⟩, ⟨7, 7, false, false, true, false⟩],
  /- 8 -/ [⟨8, 8, false, false, false, false⟩, ⟨8, 8, false, false, true, false⟩],
  /- 9 -/ [⟨2, 2, false, false, false, false⟩, ⟨2, 2, false, false, true, false⟩],
  /- 10 -/ [⟨10, 10, false, false, false, false⟩],
  /- 11 -/ [⟨11, 11, false, false, false, false⟩, ⟨11, 11, false, false, true, false⟩],
  /- 12 -/ [⟨12, 12, false, false, false, false⟩, ⟨12, 12, false, false, true, false⟩],
  /- 13 -/ [⟨13, 13, false, false, false, false⟩, ⟨13, 13, false, false, true, false⟩],
  /- 14 -/ [⟨14, 14, false, false, false, false⟩, ⟨14, 14, false, false, true, false⟩],
  /- 15 -/ [⟨15, 15, false, false, false, false⟩, ⟨15, 15, false, false, true, false⟩],
  /- 16 -/ [⟨16, 16, false, false, false, false⟩, ⟨16, 16, false, false, true, false⟩],
  /- 17 -/ [⟨17, 17, false, false, false, false⟩],
  /- 18 -/ [⟨18, 18, false, false, false, false⟩, ⟨18, 18, false, false, true, false⟩],
  /- 19 -/ [⟨19, 19, false, false, false, false⟩, ⟨19, 19, false, false, true, false⟩],
  /- 20 -/ [⟨20, 20, false, false, false, false⟩, ⟨20, 20, false, false, true, false⟩],
  /- 21 -/ [⟨21, 21, false, false, false, false⟩, ⟨21, 21, false, false, true, false⟩],
  /- 22 -/ [⟨22, 22, false, false, false, false⟩, ⟨22, 22, false, false, true, false⟩],
  /- 23 -/ [⟨23, 23, false, false, false, false⟩, ⟨23, 23, false, false, true, false⟩],
  /- 24 -/ [⟨2, 2, false, false, false, false⟩, ⟨2, 2, false, false, true, false⟩],
  /- 25 -/ [⟨2, 2, false, false, false, false⟩, ⟨2, 2, false, false, true, false⟩],
  /- 26 -/ [⟨26, 0, false, false, false, false⟩, ⟨26, 2, false, false, false, false⟩, ⟨26, 4, false, false, false, false⟩, ⟨26, 5, false, false, false, false⟩, ⟨26, 6, false, false, false, false⟩, ⟨26, 7, false, false, false, false⟩, ⟨26, 10, false, false, false, false⟩, ⟨26, 11, false, false, false, false⟩, ⟨26, 12, false, false, false, false⟩, ⟨26, 13, false, false, false, false⟩, ⟨26, 14, false, false, false, false⟩, ⟨26, 15, false, false, false, false⟩, ⟨26, 16, false, false, false, false⟩, ⟨26, 17, false, false, false, false⟩, ⟨26, 18, false, false, false, false⟩, ⟨26, 19, false, false, false, false⟩, ⟨26, 21, false, false, false, false⟩, ⟨26, 22, false, false, false, false⟩, ⟨26, 27, false, false, false, false⟩, ⟨26, 29, false, false, false, false⟩, ⟨26, 30, false, false, false, false⟩, ⟨26, 31, false, false, false, false⟩, ⟨26, 32, false, false, false, false⟩, ⟨26, 33, false, false, false, false⟩, ⟨26, 34, false, false, false, false⟩, ⟨26, 35, false, false, false, false⟩, ⟨26, 38, false, false, false, false⟩, ⟨26, 39, false, false, false, false⟩, ⟨26, 40, false, false, false, false⟩, ⟨26, 41, false, false, false, false⟩],
  /- 27 -/ [⟨27, 27, false, false, false, false⟩, ⟨27, 27, false, false, true, false⟩],
  /- 28 -/ [⟨28, 28, false, false, false, true⟩],
  /- 29 -/ [⟨29, 29, false, false, false, false⟩],
  /- 30 -/ [⟨30, 30, false, false, false, false⟩, ⟨30, 30, false, false, true, false⟩],
  /- 31 -/ [⟨31, 31, false, false, false, false⟩, ⟨31, 31, false, false, true, false⟩],
  /- 32 -/ [⟨32, 32, false, false, false, false⟩, ⟨32, 32, false, false, true, false⟩],
  /- 33 -/ [⟨33, 33, false, false, false, false⟩, ⟨33, 33, false, false, true, false⟩],
  /- 34 -/ [⟨34, 34, false, false, false, false⟩, ⟨34, 34, false, false, true, false⟩],
  /- 35 -/ [⟨35, 35, false, false, false, false⟩, ⟨35, 35, false, false, true, false⟩],
  /- 36 -/ [⟨36, 36, false, false, false, false⟩, ⟨36, 36, false, false, true, false⟩],
  /- 37 -/ [⟨18, 18, false, false, false, false⟩, ⟨18, 18, false, false, true, false⟩],
  /- 38 -/ [⟨38, 38, false, false, false, false⟩, ⟨38, 38, false, false, true, false⟩],
  /- 39 -/ [⟨39, 39, false, true, false, false⟩, ⟨39, 39, false, true, true, false⟩],
  /- 40 -/ [⟨40, 40, false, false, false, false⟩, ⟨40, 40, false, false, true, false⟩],
  /- 41 -/ [⟨41, 41, false, false, false, false⟩, ⟨41, 41, false, false, true, false⟩],
  /- 42 -/ [⟨2, 2, false, false, true, false⟩],
  /- 43 -/ [⟨13, 13, true, false, false, false⟩, ⟨13, 13, true, false, true, false⟩],
  /- 44 -/ [⟨4, 4, true, false, false, false⟩, ⟨4, 4, true, false, true, false⟩],
  /- 45 -/ [⟨39, 39, false, false, false, false⟩, ⟨39, 39, false, false, true, false⟩],
  /- 46 -/ [⟨26, 2, false, false, false, false⟩],
  /- 47 -/ [⟨26, 2, false, false, false, false⟩],
  /- 48 -/ [⟨26, 2, false, false, false, false⟩],
  /- 49 -/ [⟨26, 3, false, false, false, false⟩],
  /- 50 -/ [⟨26, 4, false, false, false, false⟩],
  /- 51 -/ [⟨26, 5, false, false, false, false⟩],
  /- 52 -/ [],
  /- 53 -/ [⟨26, 7, false, false, false, false⟩],
  /- 54 -/ [⟨26, 8, false, false, false, false⟩],
  /- 55 -/ [⟨26, 2, false, false, false, false⟩],
  /- 56 -/ [],
  /- 57 -/ [⟨26, 11, false, false, false, false⟩],
  /- 58 -/ [⟨26, 12, false, false, false, false⟩],
  /- 59 -/ [⟨26, 13, false, false, false, false⟩],
  /- 60 -/ [⟨26, 14, false, false, false, false⟩],
  /- 61 -/ [⟨26, 15, false, false, false, false⟩],
  /- 62 -/ [⟨26, 16, false, false, false, false⟩],
  /- 63 -/ [],
  /- 64 -/ [⟨26, 18, false, false, false, false⟩],
  /- 65 -/ [⟨26, 19, false, false, false, false⟩],
  /- 66 -/ [⟨26, 20, false, false, false, false⟩],
  /- 67 -/ [⟨26, 21, false, false, false, false⟩],
  /- 68 -/ [⟨26, 22, false, false, false, false⟩],
  /- 69 -/ [⟨26, 23, false, false, false, false⟩],
  /- 70 -/ [⟨26, 2, false, false, false, false⟩],
  /- 71 -/ [⟨26, 2, false, false, false, false⟩],
  /- 72 -/ [⟨26, 0, false, false, false, false⟩, ⟨26, 2, false, false, false, false⟩, ⟨26, 4, false, false, false, false⟩, ⟨26, 5, false, false, false, false⟩, ⟨26, 6, false, false, false, false⟩, ⟨26, 7, false, false, false, false⟩, ⟨26, 10, false, false, false, false⟩, ⟨26, 11, false, false, false, false⟩, ⟨26, 12, false, false, false, false⟩, ⟨26, 13, false, false, false, false⟩, ⟨26, 14, false, false, false, false⟩, ⟨26, 15, false, false, false, false⟩, ⟨26, 16, false, false, false, false⟩, ⟨26, 17, false, false, false, false⟩, ⟨26, 18, false, false, false, false⟩, ⟨26, 19, false, false, false, false⟩, ⟨26, 21, false, false, false, false⟩, ⟨26, 22, false, false, false, false⟩, ⟨26, 27, false, false, false, false⟩, ⟨26, 29, false, false, false, false⟩, ⟨26, 30, false, false, false, false⟩, ⟨26, 31, false, false, false, false⟩, ⟨26, 32, false, false, false, false⟩, ⟨26, 33, false, false, false, false⟩, ⟨26, 34, false, false, false, false⟩, ⟨26, 35, false, false, false, false⟩, ⟨26, 38, false, false, false, false⟩, ⟨26, 39, false, false, false, false⟩, ⟨26, 40, false, false, false, false⟩, ⟨26, 41, false, false, false, false⟩],
  /- 73 -/ [⟨26, 27, false, false, false, false⟩],
  /- 74 -/ [⟨26, 28, false, false, false, true⟩],
  /- 75 -/ [],
  /- 76 -/ [⟨26, 30, false, false, false, false⟩],
  /- 77 -/ [⟨26, 31, false, false, false, false⟩],
  /- 78 -/ [⟨26, 32, false, false, false, false⟩],
  /- 79 -/ [⟨26, 33, false, false, false, false⟩],
  /- 80 -/ [⟨26, 34, false, false, false, false⟩],
  /- 81 -/ [⟨26, 35, false, false, false, false⟩],
  /- 82 -/ [⟨26, 36, false, false, false, false⟩],
  /- 83 -/ [⟨26, 18, false, false, false, false⟩],
  /- 84 -/ [⟨26, 38, false, false, false, false⟩],
  /- 85 -/ [⟨26, 39, false, false, false, false⟩],
  /- 86 -/ [⟨26, 40, false, false, false, false⟩],
  /- 87 -/ [⟨26, 41, false, false, false, false⟩],
  /- 88 -/ [⟨26, 2, false, false, false, false⟩]]

/-- A space that confuses the machine: it forgets what was before the spaces, or does not
notice that there is a space. -/
def Features.confusing (f : Features) (x : Nat) : Bool :=
  x == SP && ((f.last == SP && ([OP, QU, CL, CP, B2].contains f.beforeSpaces || f.zeroWidth)) || f.hebrewHyphen ||
    (f.last == RI && !f.oddIndicators))

/-- A position where the machine goes against the rules. -/
def Features.odd (f : Features) (x : Nat) : Bool :=
  (f.joiner && [ID, EB, EM].contains x) || (f.last == CL && x == PR) || (f.last == RI && !f.oddIndicators && x == GL)

/-- The action that an entry of the machine stands for. -/
def actionOf (v : Nat) : Action := if 0xc0 ≤ v then .hard else if 0x80 ≤ v then .soft else .no

/-- The state that an entry of the machine stands for. -/
def stateOf (v : Nat) : Nat := if 0x80 ≤ v then v &&& 0x3f else v

/-- One step of the machine and of the rules. -/
def checkStep (s : Nat) (f : Features) (x : Nat) : Bool :=
  match machine s x with
  | none => false
  | some v => (f.odd (lb1 x) || actionOf v == rules f (lb1 x)) &&
    (f.confusing (lb1 x) || (seenIn[stateOf v]?.getD []).contains (f.step (lb1 x)))

/-- The steps for all classes. -/
def checkClasses (s : Nat) (f : Features) : Nat → Bool
  | 0 => true
  | x + 1 => checkStep s f x && checkClasses s f x

/-- All steps. -/
def checkAll : List (List Features) → Nat → Bool
  | [], _ => true
  | fs :: r, s => fs.all (fun f => checkClasses s f 43) && checkAll r (s + 1)

theorem checkAll_seenIn : checkAll seenIn 0 = true := by decide +kernel

/-- What `checkClasses` says. -/
theorem checkClasses_spec {s : Nat} {f : Features} : ∀ {n x : Nat}, checkClasses s f n = true → x < n → checkStep s f x = true := by
  intro n
  induction n with
  | zero => intro x _ h; omega
  | succ n ih =>
    intro x h hx
    simp only [checkClasses, Bool.and_eq_true] at h
    by_cases e : x = n
    · subst e; exact h.1
    · exact ih h.2 (by omega)

/-- What `checkAll` says. -/
theorem checkAll_spec : ∀ {t : List (List Features)} {i s : Nat} {f : Features}, checkAll t i = true → f ∈ t[s]?.getD [] →
    checkClasses (i + s) f 43 = true := by
  intro t
  induction t with
  | nil => intro i s f _ h; simp at h
  | cons fs t ih =>
    intro i s f h hf
    simp only [checkAll, Bool.and_eq_true] at h
    cases s with
    | zero => exact List.all_eq_true.1 h.1 f (by simpa using hf)
    | succ s =>
      have := ih h.2 (s := s) (by simpa using hf)
      rwa [show i + (s + 1) = i + 1 + s by omega]

/-- One step of the machine and of the rules. -/
theorem check_step {s x : Nat} {f : Features} (hf : f ∈ seenIn[s]?.getD []) (hx : x < 43) :
    ∃ v, machine s x = some v ∧ (f.odd (lb1 x) = true ∨ actionOf v = rules f (lb1 x)) ∧
      (f.confusing (lb1 x) = true ∨ f.step (lb1 x) ∈ seenIn[stateOf v]?.getD []) := by
  have := checkClasses_spec (checkAll_spec checkAll_seenIn hf) hx
  rw [Nat.zero_add] at this
  unfold checkStep at this
  split at this
  · exact absurd this (by simp)
  · rename_i v hv
    simp only [Bool.and_eq_true, Bool.or_eq_true, beq_iff_eq, List.contains_iff_mem] at this
    exact ⟨v, hv, this.1, this.2⟩

/-- The first state of the machine. -/
theorem check_first : ∀ x : Fin 43, Features.first (lb1 x.val) ∈ seenIn[x.val]?.getD [] := by decide +kernel

/-- The state of the machine after a history. -/
def stateAfter : List Nat → Nat
  | [] => 0
  | [x] => x
  | x :: h => stateOf ((machine (stateAfter h) x).getD 0)

/-- After more than one character. -/
theorem stateAfter_cons {h : List Nat} (hne : h ≠ []) (x : Nat) : stateAfter (x :: h) = stateOf ((machine (stateAfter h) x).getD 0) := by
  cases h with
  | nil => exact absurd rfl hne
  | cons y h => rfl

/-- No space in the history confuses the machine. -/
def Steady : List Nat → Prop
  | [] => True
  | [_] => True
  | x :: h => (features (h.map lb1)).confusing (lb1 x) = false ∧ Steady h

/-- After more than one character. -/
theorem Steady.cons {h : List Nat} {x : Nat} (hne : h ≠ []) : Steady (x :: h) ↔ (features (h.map lb1)).confusing (lb1 x) = false ∧ Steady h := by
  cases h with
  | nil => exact absurd rfl hne
  | cons y h => rfl

/-- The state of the machine goes with what the rules look at. -/
theorem seen_stateAfter : ∀ {h : List Nat}, h ≠ [] → (∀ x ∈ h, x < 43) → Steady h → features (h.map lb1) ∈ seenIn[stateAfter h]?.getD [] := by
  intro h
  induction h with
  | nil => intro hne; exact absurd rfl hne
  | cons x h ih =>
    intro _ hx hs
    by_cases hne : h = []
    · subst hne
      have := check_first ⟨x, hx x (by simp)⟩
      show features [lb1 x] ∈ _
      rw [features_one]
      exact this
    · rw [Steady.cons hne] at hs
      have := ih hne (fun y hy => hx y (by simp [hy])) hs.2
      obtain ⟨v, hv, _, h2⟩ := check_step this (hx x (by simp))
      rw [stateAfter_cons hne, hv]
      rw [List.map_cons, features_cons (by simpa using hne)]
      rcases h2 with h2 | h2
      · rw [h2] at hs; exact absurd hs.1 (by simp)
      · exact h2

/-- The machine in a state that it can be in. -/
theorem machine_some {s x : Nat} (hs : s < 89) (hx : x < 43) : ∃ v, machine s x = some v ∧ stateOf v < 89 := by
  obtain ⟨v, hv, hp⟩ := tableGet_all (by decide) machine_all (i := s * nCategories + x)
    (by rw [show lbStateMachine.length = 89 from rfl, show nCategories = 43 from rfl]; omega)
  refine ⟨v, hv, ?_⟩
  simp only [Bool.or_eq_true, Bool.and_eq_true, Nat.blt_eq, Nat.ble_eq] at hp
  unfold stateOf
  split
  · rcases hp with h | h <;> omega
  · rcases hp with h | h <;> omega

/-- The states are in range. -/
theorem stateAfter_lt : ∀ {h : List Nat}, (∀ x ∈ h, x < 43) → stateAfter h < 89 := by
  intro h
  induction h with
  | nil => intro _; decide
  | cons x h ih =>
    intro hx
    by_cases hne : h = []
    · subst hne; have := hx x (by simp); show x < 89; omega
    · rw [stateAfter_cons hne]
      obtain ⟨v, hv, h2⟩ := machine_some (ih (fun y hy => hx y (by simp [hy]))) (hx x (by simp))
      rw [hv]; exact h2

/-- The classes that end a line. -/
def lineEnds : List Nat := [BK, CR, LF, NL]

/-- The states after a line end, and only these, make the next break hard. -/
theorem machine_hard : rowsAll 43 (fun i v =>
    (decide (stateOf v ∈ lineEnds) == decide (i % 43 ∈ lineEnds)) &&
    (!decide (i % 43 ∈ lineEnds) || decide (stateOf v = i % 43)) &&
    (decide (0xc0 ≤ v) == (decide (i / 43 ∈ lineEnds) && !(decide (i / 43 = CR ∧ i % 43 = LF))))) lbStateMachine 0 = true := by
  decide +kernel

/-- What `machine_hard` says of a step. -/
theorem machine_line_end {s x v : Nat} (hx : x < 43) (hv : machine s x = some v) :
    (stateOf v ∈ lineEnds ↔ x ∈ lineEnds) ∧ (x ∈ lineEnds → stateOf v = x) ∧
    (0xc0 ≤ v ↔ s ∈ lineEnds ∧ ¬ (s = CR ∧ x = LF)) := by
  have := tableGet_of_all (by decide) machine_hard hv
  have e1 : (s * nCategories + x) % 43 = x := by show (s * 43 + x) % 43 = x; omega
  have e2 : (s * nCategories + x) / 43 = s := by show (s * 43 + x) / 43 = s; omega
  simp only [e1, e2, Bool.and_eq_true, Bool.or_eq_true, beq_iff_eq, decide_eq_decide] at this
  obtain ⟨⟨h1, h2⟩, h3⟩ := this
  refine ⟨h1, fun h => ?_, ?_⟩
  · rcases h2 with h2 | h2
    · simp [h] at h2
    · simpa using h2
  · by_cases e : 0xc0 ≤ v
    · simp only [e, decide_true] at h3
      have h3 := h3.symm
      simp only [Bool.and_eq_true, decide_eq_true_eq, Bool.not_eq_true', decide_eq_false_iff_not] at h3
      exact ⟨fun _ => h3, fun _ => e⟩
    · simp only [e, decide_false] at h3
      have h3 := h3.symm
      refine ⟨fun h => absurd h e, fun h => ?_⟩
      simp [h.1, h.2] at h3

/-- Which state comes after a line end. -/
theorem stateAfter_end : ∀ {h : List Nat} {x : Nat}, (∀ y ∈ x :: h, y < 43) →
    (stateAfter (x :: h) ∈ lineEnds ↔ x ∈ lineEnds) ∧ (x ∈ lineEnds → stateAfter (x :: h) = x) := by
  intro h x hx
  by_cases hne : h = []
  · subst hne; exact ⟨Iff.rfl, fun _ => rfl⟩
  · rw [stateAfter_cons hne]
    obtain ⟨v, hv, _⟩ := machine_some (stateAfter_lt (h := h) (fun y hy => hx y (by simp [hy]))) (hx x (by simp))
    rw [hv]
    have := machine_line_end (hx x (by simp)) hv
    exact ⟨this.1, this.2.1⟩

end Uax14

end Xi
