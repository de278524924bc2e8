import Verif.Spec.Comments
import Verif.Props.Delta

/-!
# Edits of single lines

An edit that is made of replacements within lines replaces them in the lines.
-/

namespace Xi

namespace Syntect

abbrev CScript := List (Nat × Nat × List Char)

/-- A replacement in a line. -/
abbrev LineEdit := Option (Nat × Nat × List Char)

def editLine : LineEdit → List Char → List Char
  | none, l => l
  | some (a, b, x), l => l.take a ++ x ++ l.drop b

def EditOk : LineEdit → List Char → Prop
  | none, _ => True
  | some (a, b, _), l => a ≤ b ∧ b ≤ l.length

def shifted (off : Nat) : LineEdit → CScript
  | none => []
  | some (a, b, x) => [(off + a, off + b, x)]

def lineScript (ed : Nat → List Char → LineEdit) : Nat → Nat → List (List Char) → CScript
  | _, _, [] => []
  | off, i, l :: ls => shifted off (ed i l) ++ lineScript ed (off + l.length) (i + 1) ls

def editLines (ed : Nat → List Char → LineEdit) : Nat → List (List Char) → List (List Char)
  | _, [] => []
  | i, l :: ls => editLine (ed i l) l :: editLines ed (i + 1) ls

theorem lineScript_ok {ed : Nat → List Char → LineEdit} : ∀ {ls : List (List Char)} {off i lo : Nat},
    (∀ j l, ls[j]? = some l → EditOk (ed (i + j) l) l) → lo ≤ off → ScriptOk (off + ls.flatten.length) lo (lineScript ed off i ls)
  | [], off, i, lo, _, h => by simpa [lineScript, ScriptOk] using h
  | l :: ls, off, i, lo, h, hlo => by
    have h0 := h 0 l rfl
    have hr : ∀ j l', ls[j]? = some l' → EditOk (ed (i + 1 + j) l') l' := fun j l' hj => by
      have := h (j + 1) l' (by simpa using hj)
      rwa [show i + (j + 1) = i + 1 + j by omega] at this
    have e : off + (l :: ls).flatten.length = off + l.length + ls.flatten.length := by simp; omega
    rw [e]
    simp only [lineScript]
    cases hx : ed i l with
    | none =>
      simpa [shifted] using lineScript_ok hr (show lo ≤ off + l.length by omega)
    | some t =>
      obtain ⟨a, b, x⟩ := t
      simp only [Nat.add_zero, hx, EditOk] at h0
      simp only [shifted, List.singleton_append, ScriptOk]
      exact ⟨by omega, by omega, lineScript_ok hr (by omega)⟩

theorem replaced_lineScript {ed : Nat → List Char → LineEdit} : ∀ {ls : List (List Char)} {pre : List Char} {i lo : Nat},
    (∀ j l, ls[j]? = some l → EditOk (ed (i + j) l) l) → lo ≤ pre.length →
    replaced (pre ++ ls.flatten) lo (lineScript ed pre.length i ls) = pre.drop lo ++ (editLines ed i ls).flatten
  | [], pre, i, lo, _, h => by simp [lineScript, replaced, editLines]
  | l :: ls, pre, i, lo, h, hlo => by
    have h0 := h 0 l rfl
    have hr : ∀ j l', ls[j]? = some l' → EditOk (ed (i + 1 + j) l') l' := fun j l' hj => by
      have := h (j + 1) l' (by simpa using hj)
      rwa [show i + (j + 1) = i + 1 + j by omega] at this
    have ih := fun lo hlo => replaced_lineScript (ed := ed) (ls := ls) (pre := pre ++ l) (i := i + 1) (lo := lo) hr hlo
    simp only [List.length_append, List.append_assoc] at ih
    simp only [lineScript, editLines, List.flatten_cons]
    cases hx : ed i l with
    | none =>
      simp only [shifted, List.nil_append, editLine]
      rw [ih lo (by omega), List.drop_append, show lo - pre.length = 0 by omega]
      simp
    | some t =>
      obtain ⟨a, b, x⟩ := t
      simp only [Nat.add_zero, hx, EditOk] at h0
      simp only [shifted, List.singleton_append, replaced, editLine]
      rw [ih (pre.length + b) (by omega)]
      have e1 : (List.take (pre.length + a) (pre ++ (l ++ ls.flatten))).drop lo = pre.drop lo ++ l.take a := by
        rw [List.take_append, List.take_of_length_le (by omega), List.drop_append, show lo - pre.length = 0 by omega,
          show pre.length + a - pre.length = a by omega, List.take_append_of_le_length (by omega)]
        simp
      have e2 : (pre ++ l).drop (pre.length + b) = l.drop b := by
        rw [List.drop_append, List.drop_eq_nil_of_le (by omega)]
        simp
      rw [e1, e2]
      simp

/-- The replacement in line `n`. -/
def lineEd (d : List (List Char)) (ed : Nat → List Char → LineEdit) (n : Nat) : CScript :=
  match d[n]? with
  | none => []
  | some l => shifted (d.take n).flatten.length (ed n l)

theorem lineScript_eq {d : List (List Char)} {ed : Nat → List Char → LineEdit} : ∀ {k i : Nat}, i + k = d.length →
    lineScript ed (d.take i).flatten.length i (d.drop i) = (List.range' i k).flatMap (lineEd d ed)
  | 0, i, h => by simp [List.drop_eq_nil_of_le (show d.length ≤ i by omega), lineScript]
  | k + 1, i, h => by
    have hi : i < d.length := by omega
    have ih := lineScript_eq (d := d) (ed := ed) (k := k) (i := i + 1) (by omega)
    rw [List.drop_eq_getElem_cons hi, List.range'_succ, List.flatMap_cons, ← ih]
    simp only [lineScript, lineEd, List.getElem?_eq_getElem hi]
    congr 2
    rw [List.take_succ_eq_append_getElem hi, List.flatten_append, List.length_append]
    simp only [List.flatten_cons, List.flatten_nil, List.append_nil]

theorem separated_le {n : Nat} : ∀ {rs : List (Nat × Nat)} {lo : Nat}, Separated n lo rs → lo ≤ n
  | [], _, h => h
  | r :: rs, lo, h => by have := separated_le h.2.2; have := h.1; have := h.2.1; omega

theorem separated_mem {n : Nat} : ∀ {rs : List (Nat × Nat)} {lo : Nat}, Separated n lo rs → ∀ r ∈ rs, lo ≤ r.1 ∧ r.1 < r.2 ∧ r.2 ≤ n
  | r :: rs, lo, h, r', hm => by
    have h1 := h.1
    have h2 := h.2.1
    rcases List.mem_cons.1 hm with rfl | hm
    · exact ⟨h1, h2, separated_le h.2.2⟩
    · have := separated_mem h.2.2 r' hm
      exact ⟨by omega, this.2⟩

theorem rangeWith_of_mem {n : Nat} : ∀ {rs : List (Nat × Nat)} {lo : Nat}, Separated n lo rs → ∀ r ∈ rs, ∀ m, r.1 ≤ m → m < r.2 → rangeWith rs m = some r
  | r :: rs, lo, h, r', hm, m, h1, h2 => by
    unfold rangeWith
    rcases List.mem_cons.1 hm with rfl | hm
    · rw [List.find?_cons_of_pos (by simp; omega)]
    · have := separated_mem h.2.2 r' hm
      rw [List.find?_cons_of_neg (by simp; omega)]
      exact rangeWith_of_mem h.2.2 r' hm m h1 h2

theorem rangeWith_some {rs : List (Nat × Nat)} {m : Nat} {r : Nat × Nat} (h : rangeWith rs m = some r) : r ∈ rs ∧ r.1 ≤ m ∧ m < r.2 := by
  unfold rangeWith at h
  have h1 := List.mem_of_find?_eq_some h
  have h2 := List.find?_some h
  simp at h2
  exact ⟨h1, h2⟩

theorem rangeWith_none {rs : List (Nat × Nat)} {m : Nat} (h : rangeWith rs m = none) : ∀ r ∈ rs, ¬ (r.1 ≤ m ∧ m < r.2) := by
  unfold rangeWith at h
  intro r hr
  have := List.find?_eq_none.1 h r hr
  simpa using this

theorem flatMap_ranges {β : Type} {f : Nat → List β} {n : Nat} : ∀ {rs : List (Nat × Nat)} {lo : Nat}, Separated n lo rs →
    (∀ m, lo ≤ m → (∀ r ∈ rs, ¬ (r.1 ≤ m ∧ m < r.2)) → f m = []) →
    (List.range' lo (n - lo)).flatMap f = rs.flatMap (fun r => (List.range' r.1 (r.2 - r.1)).flatMap f)
  | [], lo, h, hf => by
    simp only [List.flatMap_nil, List.flatMap_eq_nil_iff]
    intro m hm
    rw [List.mem_range'_1] at hm
    exact hf m hm.1 (by simp)
  | r :: rs, lo, h, hf => by
    have h1 := h.1
    have h2 := h.2.1
    have h3 := separated_le h.2.2
    have e : List.range' lo (n - lo) = List.range' lo (r.1 - lo) ++ (List.range' r.1 (r.2 - r.1) ++ List.range' r.2 (n - r.2)) := by
      have e1 := List.range'_append_1 (s := r.1) (m := r.2 - r.1) (n := n - r.2)
      rw [show r.1 + (r.2 - r.1) = r.2 by omega] at e1
      rw [e1]
      have e2 := List.range'_append_1 (s := lo) (m := r.1 - lo) (n := r.2 - r.1 + (n - r.2))
      rw [show lo + (r.1 - lo) = r.1 by omega] at e2
      rw [e2]
      congr 1; omega
    rw [e, List.flatMap_append, List.flatMap_append, List.flatMap_cons, flatMap_ranges h.2.2]
    · have : (List.range' lo (r.1 - lo)).flatMap f = [] := by
        simp only [List.flatMap_eq_nil_iff]
        intro m hm
        rw [List.mem_range'_1] at hm
        refine hf m hm.1 (fun r' hr' => ?_)
        rcases List.mem_cons.1 hr' with rfl | hr'
        · omega
        · have := separated_mem h.2.2 r' hr'; omega
      rw [this]; rfl
    · intro m hm hn
      refine hf m (by omega) (fun r' hr' => ?_)
      rcases List.mem_cons.1 hr' with rfl | hr'
      · omega
      · exact hn r' hr'

theorem crun_append (b : EditBuilder) (x y : CScript) : b.run (x ++ y) = (b.run x).bind (fun b => b.run y) := by
  simp [DeltaBuilder.run, List.foldlM_append]

theorem cfold_scripts {β : Type} {step : EditBuilder → β → Option EditBuilder} {scr : β → CScript} : ∀ {l : List β} (b : EditBuilder),
    (∀ x ∈ l, ∀ b, step b x = b.run (scr x)) → l.foldlM step b = b.run (l.flatMap scr)
  | [], b, _ => rfl
  | x :: l, b, h => by
    rw [List.foldlM_cons, List.flatMap_cons, crun_append, h x (by simp)]
    cases b.run (scr x) with
    | none => rfl
    | some b' => exact cfold_scripts b' (fun y hy => h y (by simp [hy]))

theorem cdelete_eq (b : EditBuilder) (x y : Nat) : b.delete x y = b.replace x y [] := by
  simp [DeltaBuilder.replace]

theorem crun_one (b : EditBuilder) (x : Nat × Nat × List Char) : b.run [x] = b.replace x.1 x.2.1 x.2.2 := by
  simp [DeltaBuilder.run]

/-- Replacements within lines, given to the builder, edit the lines; an edit is sent unless it would change nothing. -/
theorem edit_lines {d : List (List Char)} {ed : Nat → List Char → LineEdit} (h : ∀ j l, d[j]? = some l → EditOk (ed j l) l) :
    ∃ b, (DeltaBuilder.new d.flatten.length : EditBuilder).run ((List.range' 0 d.length).flatMap (lineEd d ed)) = some b ∧
      b.build.apply d.flatten = some (editLines ed 0 d).flatten ∧
      (b.isEmpty = true → (editLines ed 0 d).flatten = d.flatten) := by
  have e := lineScript_eq (d := d) (ed := ed) (k := d.length) (i := 0) (by omega)
  simp only [List.take_zero, List.flatten_nil, List.length_nil, List.drop_zero] at e
  have h' : ∀ j l, d[j]? = some l → EditOk (ed (0 + j) l) l := by simpa using h
  have ok := lineScript_ok (off := 0) (lo := 0) h' (Nat.le_refl _)
  have rep := replaced_lineScript (pre := []) (lo := 0) h' (Nat.le_refl _)
  simp only [List.length_nil, List.nil_append, List.drop_zero, Nat.zero_add] at ok rep
  obtain ⟨b, b1, b2, b3, b4, _⟩ := C13_builder d.flatten _ ok
  rw [← e]
  rw [rep] at b4
  refine ⟨b, b1, b4, fun he => ?_⟩
  simp only [DeltaBuilder.isEmpty, Bool.and_eq_true, beq_iff_eq, List.isEmpty_iff] at he
  have hb : b.delta.baseLen = d.flatten.length := by
    rw [← b3]; unfold DeltaBuilder.build; split <;> rfl
  rw [b.build.apply_spec d.flatten b2 b3.symm] at b4
  simp only [Option.some.injEq] at b4
  rw [← b4]
  simp only [DeltaBuilder.build, he.1, he.2, List.nil_append, hb]
  by_cases h0 : 0 < d.flatten.length
  · rw [if_pos h0]
    simp only [Delta.result, elsText, List.flatMap_cons, List.flatMap_nil, List.append_nil, List.drop_zero, List.take_length]
  · have : d.flatten = [] := List.eq_nil_of_length_eq_zero (by omega)
    simp [this, Delta.result, elsText, he.2]

end Syntect

end Xi
