import Verif.Core.FindNext
import Verif.Props.Highlights

/-!
# C73: find next and find previous
-/

namespace Xi

open Selection FindState

/-- The occurrences are in order, none is empty, and all are in a text of this length. -/
def Occurrences (len : Nat) (occ : Selection) : Prop := Selection.Inv occ ∧ ∀ r ∈ occ, r.start < r.stop ∧ r.stop ≤ len

theorem Occurrences.sides {len : Nat} {occ : Selection} (h : Occurrences len occ) {r : SelRegion} (hr : r ∈ occ) : r.lo = r.start ∧ r.hi = r.stop ∧ r.lo < r.hi ∧ r.hi ≤ len := by
  have := h.2 r hr
  unfold SelRegion.lo SelRegion.hi
  omega

/-- Sound highlights are in order, and in the text. -/
theorem Sound.occurrences {lower : CaseTable} {s : List UInt8} {cm : CaseMatching} {pat : List Char} {occ : Selection} (hreg : Find.Regular lower cm pat) (h : Sound lower s cm pat occ) :
    Occurrences s.length occ :=
  ⟨h.1, fun r hr => ⟨(h.2 r hr).1, (Find.match_lt hreg (h.2 r hr).2).2⟩⟩

/-- What the search of C72 leaves behind is such occurrences. -/
theorem Good.occurrences {lower : CaseTable} {text : Rope} {q : FindState} {pat : List Char} (ht : text.Balanced) (h : Good lower text.text q) (hp : q.searchString = some pat) :
    Occurrences text.len q.occurrences := by
  rw [Rope.len_eq ht]
  exact Sound.occurrences (h pat hp).1 (h pat hp).2.2

theorem Occurrences.ordered {len : Nat} {A B : List SelRegion} {x y : SelRegion} (h : Occurrences len (A ++ B)) (hx : x ∈ A) (hy : y ∈ B) : x.hi ≤ y.lo := by
  have := h.1
  unfold Selection.Inv at this
  exact ((List.pairwise_append.1 this).2.2 x hx y hy).1

/-- The occurrences from an offset on. -/
theorem range_forward {len start : Nat} {occ : Selection} (h : Occurrences len occ) (hs : start ≤ len + 1) :
    occ.regionsInRange start len = some (occ.filter fun r => decide (start ≤ r.hi)) := by
  by_cases hl : start ≤ len
  · obtain ⟨A, l, B, h1, h2, h3, h4, h5⟩ := C32_range_partial h.1 hl
    have hB : B = [] := by
      cases B with
      | nil => rfl
      | cons b B =>
        have := h.sides (r := b) (by rw [h1]; simp)
        have := (h5 b (by simp)).1
        omega
    subst hB
    rw [h2, h1, List.append_nil, List.filter_append]
    have e1 : A.filter (fun r => decide (start ≤ r.hi)) = [] := by
      rw [List.filter_eq_nil_iff]
      intro r hr
      have := h3 r hr
      simp only [decide_eq_true_eq]
      omega
    have e2 : l.filter (fun r => decide (start ≤ r.hi)) = l := by
      rw [List.filter_eq_self]
      intro r hr
      have := (h4 r hr).1
      simpa using this
    rw [e1, e2, List.nil_append]
  · have : start = len + 1 := by omega
    subst this
    have e1 : occ.filter (fun r => decide (len + 1 ≤ r.hi)) = [] := by
      rw [List.filter_eq_nil_iff]
      intro r hr
      have := h.sides hr
      simp only [decide_eq_true_eq]
      omega
    rw [e1]
    have e2 : occ.search (len + 1) = occ.length := by
      obtain ⟨A, B, g1, g2, g3, g4⟩ := search_split h.1 (len + 1)
      cases B with
      | nil => rw [g2, g1, List.append_nil]
      | cons b B =>
        have := h.sides (r := b) (by rw [g1]; simp)
        have := g4 b (by simp)
        omega
    obtain ⟨A, B, g1, g2, g3, g4⟩ := search_split h.1 len
    unfold regionsInRange
    simp only [e2, g2]
    cases B with
    | nil =>
      rw [List.append_nil] at g1
      subst g1
      have : occ[occ.length]? = none := by simp
      rw [this]
      simp
    | cons b B =>
      have hb := h.sides (r := b) (by rw [g1]; simp)
      cases B with
      | nil =>
        have : occ[A.length]? = some b := by simp [g1]
        rw [this]
        have hb' : b.lo ≤ len := by omega
        simp [hb', g1]
      | cons c B =>
        have hc := h.sides (r := c) (by rw [g1]; simp)
        have := g4 b (by simp)
        have hh : Occurrences len ((A ++ [b]) ++ (c :: B)) := by rw [g1] at h; simpa using h
        have := hh.ordered (x := b) (y := c) (by simp) (by simp)
        omega

/-- The occurrence touches what is selected. -/
def Touches (sel : Selection) (o : SelRegion) : Prop := ∃ r ∈ sel, r.lo ≤ o.hi ∧ o.lo ≤ r.hi

instance (sel : Selection) (o : SelRegion) : Decidable (Touches sel o) := by
  unfold Touches
  exact inferInstance

theorem touches_iff {sel : Selection} (hs : Selection.Inv sel) (o : SelRegion) : (sel.regionsInRange o.lo o.hi).map List.isEmpty = some (!decide (Touches sel o)) := by
  obtain ⟨A, l, B, h1, h2, h3, h4, h5⟩ := C32_range_partial hs (lo_le o)
  rw [h2, Option.map_some, Option.some.injEq]
  cases l with
  | nil =>
    have : ¬ Touches sel o := by
      rintro ⟨r, hr, r1, r2⟩
      rw [h1] at hr
      simp only [List.append_nil, List.mem_append] at hr
      rcases hr with hr | hr
      · have := h3 r hr
        omega
      · obtain ⟨q1, q2⟩ := h5 r hr
        have : r.lo = o.hi := by omega
        obtain ⟨-, l', x, hx, -⟩ := q2 this
        simp at hx
    simp [this]
  | cons x l =>
    have : Touches sel o := ⟨x, by rw [h1]; simp, (h4 x (by simp)).2, (h4 x (by simp)).1⟩
    simp [this]

theorem filterAuxM_some {α : Type} {f : α → Option Bool} {g : α → Bool} : ∀ (l acc : List α), (∀ x ∈ l, f x = some (g x)) →
    l.filterAuxM f acc = some ((l.filter g).reverse ++ acc)
  | [], acc, _ => rfl
  | x :: l, acc, h => by
    have ih := fun acc => filterAuxM_some (f := f) (g := g) l acc (fun y hy => h y (by simp [hy]))
    simp only [List.filterAuxM, h x (by simp), Option.bind_eq_bind, Option.bind_some, ih, List.filter_cons]
    cases g x <;> simp

theorem filterM_some {α : Type} {f : α → Option Bool} {g : α → Bool} (l : List α) (h : ∀ x ∈ l, f x = some (g x)) : l.filterM f = some (l.filter g) := by
  simp only [List.filterM, filterAuxM_some l [] h, Option.bind_eq_bind, Option.bind_some, List.append_nil, Option.pure_def, List.reverse_reverse]

/-- The occurrences that do not touch the selection. -/
theorem unselected_eq {len : Nat} {occ sel : Selection} (h : Occurrences len occ) (hs : Selection.Inv sel) :
    unselected occ sel len = some (occ.filter fun o => !decide (Touches sel o)) := by
  unfold unselected
  have e : occ.filter (fun r => decide (0 ≤ r.hi)) = occ := by simp
  rw [range_forward h (Nat.zero_le _), e]
  simp only [Option.bind_eq_bind, Option.bind_some]
  apply filterM_some
  intro o _
  have := touches_iff hs o
  cases hr : sel.regionsInRange o.lo o.hi with
  | none => rw [hr] at this; cases this
  | some l => rw [hr] at this; simpa using this

/-- Find next looks for an occurrence that ends after the last selection; a caret may be in the
occurrence, or at its end. -/
def After (sel : Selection) (o : SelRegion) : Prop := ∀ last, sel.getLast? = some last → if last.start = last.stop then last.hi ≤ o.stop else last.hi < o.stop

/-- The selection ends in the text. -/
def InText (sel : Selection) (len : Nat) : Prop := ∀ last, sel.getLast? = some last → last.hi ≤ len

theorem after_iff {len : Nat} {occ : Selection} (h : Occurrences len occ) (sel : Selection) {o : SelRegion} (ho : o ∈ occ) : After sel o ↔ (besideSelection sel).2 ≤ o.hi := by
  have := h.sides ho
  unfold After besideSelection
  cases hl : sel.getLast? with
  | none => simp
  | some last =>
    simp only [Option.some.injEq, forall_eq', SelRegion.isCaret, beq_iff_eq]
    split <;> simp only <;> omega

theorem beside_le {sel : Selection} {len : Nat} (h : InText sel len) : (besideSelection sel).2 ≤ len + 1 := by
  unfold besideSelection
  cases hl : sel.getLast? with
  | none => simp
  | some last =>
    have := h last hl
    simp only
    split <;> simp only <;> omega

variable {text : Rope} {h : FindState} {sel : Selection}

/-- The first of those in order that satisfy a condition. -/
theorem head_filter {len : Nat} {occ : Selection} (ho : Occurrences len occ) (p : SelRegion → Bool) :
    ((occ.filter p).head? = none ∧ ∀ o ∈ occ, p o = false) ∨
    ∃ o ∈ occ, (occ.filter p).head? = some o ∧ p o = true ∧ ∀ o' ∈ occ, p o' = true → o.start ≤ o'.start := by
  have hinv : (occ.filter p).Pairwise Before := List.Pairwise.sublist List.filter_sublist ho.1
  cases hf : occ.filter p with
  | nil =>
    refine .inl ⟨rfl, fun o hm => ?_⟩
    have := List.filter_eq_nil_iff.1 hf o hm
    simpa using this
  | cons o l =>
    rw [hf] at hinv
    have hm : o ∈ occ.filter p := by rw [hf]; simp
    rw [List.mem_filter] at hm
    refine .inr ⟨o, hm.1, rfl, hm.2, fun o' h1 h2 => ?_⟩
    have hm' : o' ∈ occ.filter p := List.mem_filter.2 ⟨h1, h2⟩
    rw [hf, List.mem_cons] at hm'
    rcases hm' with rfl | hm'
    · exact Nat.le_refl _
    · have := ((List.pairwise_cons.1 hinv).1 o' hm').1
      have := ho.sides hm.1
      have := ho.sides h1
      omega

/-- The last of those in order that satisfy a condition. -/
theorem last_filter {len : Nat} {occ : Selection} (ho : Occurrences len occ) (p : SelRegion → Bool) :
    ((occ.filter p).getLast? = none ∧ ∀ o ∈ occ, p o = false) ∨
    ∃ o ∈ occ, (occ.filter p).getLast? = some o ∧ p o = true ∧ ∀ o' ∈ occ, p o' = true → o'.start ≤ o.start := by
  have hinv : (occ.filter p).Pairwise Before := List.Pairwise.sublist List.filter_sublist ho.1
  rcases List.eq_nil_or_concat (occ.filter p) with hf | ⟨l, o, hf⟩
  · refine .inl ⟨by rw [hf]; rfl, fun o hm => ?_⟩
    have := List.filter_eq_nil_iff.1 hf o hm
    simpa using this
  · rw [List.concat_eq_append] at hf
    rw [hf] at hinv
    have hm : o ∈ occ.filter p := by rw [hf]; simp
    rw [List.mem_filter] at hm
    refine .inr ⟨o, hm.1, by rw [hf]; simp, hm.2, fun o' h1 h2 => ?_⟩
    have hm' : o' ∈ occ.filter p := List.mem_filter.2 ⟨h1, h2⟩
    rw [hf, List.mem_append, List.mem_singleton] at hm'
    rcases hm' with hm' | rfl
    · have := ((List.pairwise_append.1 hinv).2.2 o' hm' o (by simp)).1
      have := ho.sides hm.1
      have := ho.sides h1
      omega
    · exact Nat.le_refl _

theorem nextOccurrence_forward (ho : Occurrences text.len h.occurrences) (hi : InText sel text.len) (wrapped : Bool) :
    h.nextOccurrence text false wrapped sel =
      if (h.occurrences.filter fun o => decide ((besideSelection sel).2 ≤ o.hi)).head?.isNone ∧ wrapped = false
      then (unselected h.occurrences sel text.len).map List.head?
      else some (h.occurrences.filter fun o => decide ((besideSelection sel).2 ≤ o.hi)).head? := by
  unfold nextOccurrence
  by_cases hz : h.occurrences.length = 0
  · rw [if_pos hz]
    have : h.occurrences = [] := by simpa using hz
    rw [this]
    have e : unselected [] sel text.len = some [] := by rfl
    rw [e]
    simp
  · rw [if_neg hz]
    simp only [Bool.false_eq_true, if_false, range_forward ho (beside_le hi), Option.map_some, Option.bind_eq_bind, Option.bind_some, Option.pure_def]
    split
    · cases unselected h.occurrences sel text.len <;> rfl
    · rfl

/-- **C73.**  Find next selects the first occurrence after the last selection, if there is
one. -/
theorem C73_next (ho : Occurrences text.len h.occurrences) (hi : InText sel text.len) (hex : ∃ o ∈ h.occurrences, After sel o) (wrapped : Bool) :
    ∃ o ∈ h.occurrences, h.nextOccurrence text false wrapped sel = some (some o) ∧ After sel o ∧ ∀ o' ∈ h.occurrences, After sel o' → o.start ≤ o'.start := by
  rw [nextOccurrence_forward ho hi]
  rcases head_filter ho (fun o => decide ((besideSelection sel).2 ≤ o.hi)) with ⟨-, h2⟩ | ⟨o, h1, h2, h3, h4⟩
  · obtain ⟨o, o1, o2⟩ := hex
    have := h2 o o1
    simp only [decide_eq_false_iff_not] at this
    exact absurd ((after_iff ho sel o1).1 o2) this
  · refine ⟨o, h1, by simp [h2], (after_iff ho sel h1).2 (of_decide_eq_true h3), fun o' g1 g2 => h4 o' g1 ?_⟩
    have := (after_iff ho sel g1).1 g2
    simpa using this

/-- **C73.**  Otherwise it selects the first occurrence that does not touch a selection, if
there is one. -/
theorem C73_next_around (ho : Occurrences text.len h.occurrences) (hi : InText sel text.len) (hs : Selection.Inv sel) (hex : ∀ o ∈ h.occurrences, ¬ After sel o) :
    (h.nextOccurrence text false false sel = some none ∧ ∀ o ∈ h.occurrences, Touches sel o) ∨
    ∃ o ∈ h.occurrences, h.nextOccurrence text false false sel = some (some o) ∧ ¬ Touches sel o ∧ ∀ o' ∈ h.occurrences, ¬ Touches sel o' → o.start ≤ o'.start := by
  rw [nextOccurrence_forward ho hi]
  have e : (h.occurrences.filter fun o => decide ((besideSelection sel).2 ≤ o.hi)) = [] := by
    rw [List.filter_eq_nil_iff]
    intro o hm
    have := hex o hm
    rw [after_iff ho sel hm] at this
    simpa using this
  rw [e, if_pos ⟨rfl, rfl⟩, unselected_eq ho hs, Option.map_some]
  rcases head_filter ho (fun o => !decide (Touches sel o)) with ⟨h1, h2⟩ | ⟨o, h1, h2, h3, h4⟩
  · exact .inl ⟨by rw [h1], fun o hm => by have := h2 o hm; simpa using this⟩
  · exact .inr ⟨o, h1, by rw [h2], by simpa using h3, fun o' g1 g2 => h4 o' g1 (by simpa using g2)⟩

/-- **C73.**  The occurrences come in turn: from one of them find next goes to the one right
after it. -/
theorem C73_next_turn (ho : Occurrences text.len h.occurrences) {A B : Selection} {r r' : SelRegion} (heq : h.occurrences = A ++ r :: r' :: B)
    (hl : sel.getLast? = some r) (wrapped : Bool) : h.nextOccurrence text false wrapped sel = some (some r') := by
  have hr := ho.sides (r := r) (by rw [heq]; simp)
  have hr' := ho.sides (r := r') (by rw [heq]; simp)
  have hi : InText sel text.len := by
    intro last h1
    rw [hl, Option.some.injEq] at h1
    subst h1
    omega
  rw [heq] at ho
  have o1 := fun x (hx : x ∈ A) => ho.ordered (x := x) (y := r) hx (by simp)
  have ho2 : Occurrences text.len ((A ++ [r]) ++ (r' :: B)) := by simpa using ho
  have o2 := ho2.ordered (x := r) (y := r') (by simp) (by simp)
  rw [← heq] at ho
  rw [nextOccurrence_forward ho hi]
  have hb : (besideSelection sel).2 = r.hi + 1 := by
    unfold besideSelection
    rw [hl]
    have := caret_iff r
    simp only [SelRegion.isCaret, beq_iff_eq]
    rw [if_neg (by omega)]
  have e : (h.occurrences.filter fun o => decide ((besideSelection sel).2 ≤ o.hi)).head? = some r' := by
    rw [hb, heq, List.filter_append]
    have e1 : A.filter (fun o => decide (r.hi + 1 ≤ o.hi)) = [] := by
      rw [List.filter_eq_nil_iff]
      intro x hx
      have := o1 x hx
      simp only [decide_eq_true_eq]
      omega
    rw [e1, List.nil_append, List.filter_cons_of_neg (by simp only [decide_eq_true_eq]; omega), List.filter_cons_of_pos (by simp only [decide_eq_true_eq]; omega)]
    rfl
  rw [e]
  simp

/-- **C73.**  And from the last it goes to the first, unless they touch. -/
theorem C73_next_first (ho : Occurrences text.len h.occurrences) {A : Selection} {x r : SelRegion} (heq : h.occurrences = x :: (A ++ [r]))
    (hne : x.stop < r.start) : h.nextOccurrence text false false [r] = some (some x) := by
  have hr := ho.sides (r := r) (by rw [heq]; simp)
  have hx := ho.sides (r := x) (by rw [heq]; simp)
  have hi : InText [r] text.len := by
    intro last h1
    rw [List.getLast?_singleton, Option.some.injEq] at h1
    subst h1
    omega
  have hall : ∀ o ∈ h.occurrences, o.stop ≤ r.stop := by
    intro o hm
    have ho2 : Occurrences text.len ((x :: A) ++ [r]) := by rw [heq] at ho; simpa using ho
    rw [heq, ← List.cons_append, List.mem_append, List.mem_singleton] at hm
    rcases hm with hm | rfl
    · have := ho2.ordered (x := o) (y := r) hm (by simp)
      have := ho2.sides (r := o) (by simp at hm ⊢; rcases hm with h | h <;> simp [h])
      omega
    · exact Nat.le_refl _
  have hex : ∀ o ∈ h.occurrences, ¬ After [r] o := by
    intro o hm ha
    have := ha r rfl
    rw [if_neg (by omega)] at this
    have := hall o hm
    omega
  have hxt : ¬ Touches [r] x := by
    rintro ⟨q, hq, q1, q2⟩
    rw [List.mem_singleton] at hq
    subst hq
    omega
  rcases C73_next_around ho hi (List.pairwise_singleton _ _) hex with ⟨-, h2⟩ | ⟨o, h1, h2, h3, h4⟩
  · exact absurd (h2 x (by rw [heq]; simp)) hxt
  · have := h4 x (by rw [heq]; simp) hxt
    rw [h2]
    have hox : o = x := by
      have hm := h1
      rw [heq, List.mem_cons] at hm
      rcases hm with hm | hm
      · exact hm
      · have ho2 : Occurrences text.len ([x] ++ (A ++ [r])) := by rw [heq] at ho; simpa using ho
        have := ho2.ordered (x := x) (y := o) (by simp) hm
        have := ho.sides h1
        omega
    rw [hox]

/-- **C73 (in part).**  Find previous selects the last occurrence that begins before the last
selection, if there is one; but if that occurrence is one byte long and another one ends where
it begins, it selects the other one. -/
theorem C73_prev_partial (ho : Occurrences text.len h.occurrences) {last : SelRegion} (hl : sel.getLast? = some last) (hex : ∃ o ∈ h.occurrences, o.start < last.lo)
    (wrapped : Bool) :
    ∃ o ∈ h.occurrences, h.nextOccurrence text true wrapped sel = some (some o) ∧ o.start < last.lo ∧
      ∀ o' ∈ h.occurrences, o'.start < last.lo → o'.start ≤ o.start ∨ o'.start + 1 = last.lo ∧ o.stop = o'.start := by
  obtain ⟨o0, g1, g2⟩ := hex
  have hb : (besideSelection sel).1 = last.lo := by
    unfold besideSelection
    rw [hl]
    simp only
    split <;> rfl
  obtain ⟨A, l, B, h1, h2, h3, h4, h5⟩ := C32_range_partial ho.1 (Nat.zero_le (last.lo - 1))
  have hA : A = [] := by
    cases A with
    | nil => rfl
    | cons a A => have := h3 a (by simp); omega
  subst hA
  rw [List.nil_append] at h1
  have hz : h.occurrences.length ≠ 0 := by
    intro hz
    have : h.occurrences = [] := by simpa using hz
    rw [this] at g1
    cases g1
  have s0 := ho.sides g1
  rcases List.eq_nil_or_concat l with rfl | ⟨l', o, rfl⟩
  · rw [List.nil_append] at h1
    obtain ⟨q1, q2⟩ := h5 o0 (by rw [← h1]; exact g1)
    obtain ⟨-, l', x, hx, -⟩ := q2 (by omega)
    simp at hx
  · rw [List.concat_eq_append] at *
    have hm : o ∈ h.occurrences := by rw [h1]; simp
    have so := ho.sides hm
    refine ⟨o, hm, ?_, ?_, ?_⟩
    · unfold nextOccurrence
      rw [if_neg hz]
      simp only [hb, if_true, if_neg (show ¬ last.lo = 0 by omega), h2, Option.map_some, List.getLast?_concat, Option.bind_eq_bind, Option.bind_some, Option.isNone_some,
        Bool.false_eq_true, false_and, if_false, Option.pure_def]
    · have := (h4 o (by simp)).2
      omega
    · intro o' hm' hlt
      have so' := ho.sides hm'
      have hm2 := hm'
      rw [h1, List.mem_append] at hm2
      rcases hm2 with hm2 | hm2
      · rw [List.mem_append, List.mem_singleton] at hm2
        rcases hm2 with hm2 | rfl
        · rw [h1] at ho
          have ho3 : Occurrences text.len (l' ++ ([o] ++ B)) := by simpa using ho
          have := ho3.ordered (x := o') (y := o) hm2 (by simp)
          omega
        · exact .inl (Nat.le_refl _)
      · obtain ⟨q1, q2⟩ := h5 o' hm2
        obtain ⟨-, l2, x, hx, hx2, -⟩ := q2 (by omega)
        have hx := List.append_inj' hx rfl
        have : o = x := by simpa using hx.2
        subst this
        clear h5 q2
        right
        exact ⟨by omega, by omega⟩

/-- **C73 (in part).**  From one occurrence find previous goes to the one right before it, unless
that one is one byte long and touches both of its neighbours (`C73_prev_refuted`). -/
theorem C73_prev_turn_partial (ho : Occurrences text.len h.occurrences) {A B : Selection} {r r' : SelRegion} (heq : h.occurrences = A ++ r' :: r :: B)
    (hl : sel.getLast? = some r) (hadj : r'.start + 1 = r.start → ∀ x ∈ A, x.stop ≠ r'.start) (wrapped : Bool) :
    h.nextOccurrence text true wrapped sel = some (some r') := by
  have hr := ho.sides (r := r) (by rw [heq]; simp)
  have hr' := ho.sides (r := r') (by rw [heq]; simp)
  have ho2 : Occurrences text.len ((A ++ [r']) ++ (r :: B)) := by rw [heq] at ho; simpa using ho
  have ho3 : Occurrences text.len (A ++ (r' :: r :: B)) := by rw [heq] at ho; exact ho
  have ho4 : Occurrences text.len ((A ++ [r', r]) ++ B) := by rw [heq] at ho; simpa using ho
  have hrr := ho2.ordered (x := r') (y := r) (by simp) (by simp)
  obtain ⟨o, h1, h2, h3, h4⟩ := C73_prev_partial ho hl ⟨r', by rw [heq]; simp, by omega⟩ wrapped
  have so := ho.sides h1
  have hin := h1
  rw [heq] at hin
  simp only [List.mem_append, List.mem_cons] at hin
  rcases h4 r' (by rw [heq]; simp) (by omega) with h5 | ⟨h5, h6⟩
  · rcases hin with hin | hin | hin | hin
    · have := ho3.ordered (x := o) (y := r') hin (by simp)
      omega
    · rw [h2, hin]
    · subst hin; omega
    · have := ho4.ordered (x := r) (y := o) (by simp) hin
      omega
  · rcases hin with hin | hin | hin | hin
    · exact absurd h6 (hadj (by omega) o hin)
    · subst hin; omega
    · subst hin; omega
    · have := ho4.ordered (x := r) (y := o) (by simp) hin
      omega

/-- **C73.**  From the first it goes to the last, unless they touch. -/
theorem C73_prev_last (ho : Occurrences text.len h.occurrences) {A : Selection} {x r : SelRegion} (heq : h.occurrences = r :: (A ++ [x]))
    (hne : r.stop < x.start) : h.nextOccurrence text true false [r] = some (some x) := by
  have hr := ho.sides (r := r) (by rw [heq]; simp)
  have hx := ho.sides (r := x) (by rw [heq]; simp)
  have hz : h.occurrences.length ≠ 0 := by rw [heq]; simp
  have hb : (besideSelection [r]).1 = r.lo := by
    unfold besideSelection
    simp only [List.getLast?_singleton]
    split <;> rfl
  have hrest : ∀ o ∈ h.occurrences, r.lo ≤ o.lo := by
    intro o hm
    rw [heq, List.mem_cons] at hm
    rcases hm with rfl | hm
    · exact Nat.le_refl _
    · have ho2 : Occurrences text.len ([r] ++ (A ++ [x])) := by rw [heq] at ho; simpa using ho
      have := ho2.ordered (x := r) (y := o) (by simp) hm
      omega
  have hnone : r.lo ≠ 0 → h.occurrences.regionsInRange 0 (r.lo - 1) = some [] := by
    intro h0
    obtain ⟨A', l, B, h1, h2, h3, h4, h5⟩ := C32_range_partial ho.1 (Nat.zero_le (r.lo - 1))
    rw [h2, Option.some.injEq]
    cases l with
    | nil => rfl
    | cons o l =>
      have := (h4 o (by simp)).2
      have := hrest o (by rw [h1]; simp)
      omega
  have hxt : ¬ Touches [r] x := by
    rintro ⟨q, hq, q1, q2⟩
    rw [List.mem_singleton] at hq
    subst hq
    omega
  have hlast : (h.occurrences.filter fun o => !decide (Touches [r] o)).getLast? = some x := by
    rcases last_filter ho (fun o => !decide (Touches [r] o)) with ⟨-, h2⟩ | ⟨o, h1, h2, h3, h4⟩
    · have := h2 x (by rw [heq]; simp)
      simp [hxt] at this
    · have := h4 x (by rw [heq]; simp) (by simp [hxt])
      rw [h2]
      have hm := h1
      rw [heq, ← List.cons_append, List.mem_append, List.mem_singleton] at hm
      rcases hm with hm | hm
      · have ho2 : Occurrences text.len ((r :: A) ++ [x]) := by rw [heq] at ho; simpa using ho
        have := ho2.ordered (x := o) (y := x) hm (by simp)
        have := ho.sides h1
        omega
      · rw [hm]
  unfold nextOccurrence
  rw [if_neg hz]
  simp only [if_true, hb]
  by_cases h0 : r.lo = 0
  · rw [if_pos h0]
    simp only [Option.bind_eq_bind, Option.bind_some, Option.isNone_none, true_and, if_true, unselected_eq ho (List.pairwise_singleton _ _), Option.pure_def, hlast]
  · rw [if_neg h0, hnone h0]
    simp only [Option.map_some, List.getLast?_nil, Option.bind_eq_bind, Option.bind_some, Option.isNone_none, true_and, if_true, unselected_eq ho (List.pairwise_singleton _ _), Option.pure_def, hlast]

/-! ### The selection -/

theorem closest_spec {key : SelRegion → Option Nat} : ∀ {l : List SelRegion}, (∀ x ∈ l, ∃ k, key x = some k) →
    (l = [] ∧ closest key l = some none) ∨ ∃ o ∈ l, closest key l = some (some o) ∧ ∀ x ∈ l, ∀ a b, key o = some a → key x = some b → a ≤ b
  | [], _ => .inl ⟨rfl, rfl⟩
  | x :: l, hk => by
    right
    obtain ⟨k, hx⟩ := hk x (by simp)
    rcases closest_spec (l := l) (fun y hy => hk y (by simp [hy])) with ⟨rfl, h2⟩ | ⟨o, h1, h2, h3⟩
    · refine ⟨x, by simp, by simp [closest, hx], ?_⟩
      intro y hy a b ha hb
      rw [List.mem_singleton] at hy
      subst hy
      rw [ha, Option.some.injEq] at hb
      omega
    · obtain ⟨k', ho⟩ := hk o (by simp [h1])
      by_cases hlt : k' < k
      · refine ⟨o, by simp [h1], by simp [closest, hx, h2, ho, hlt], ?_⟩
        intro y hy a b ha hb
        rw [List.mem_cons] at hy
        rcases hy with rfl | hy
        · rw [hx, Option.some.injEq] at hb
          rw [ho, Option.some.injEq] at ha
          omega
        · exact h3 y hy a b ha hb
      · refine ⟨x, by simp, by simp [closest, hx, h2, ho, hlt], ?_⟩
        intro y hy a b ha hb
        rw [List.mem_cons] at hy
        rcases hy with rfl | hy
        · rw [ha, Option.some.injEq] at hb
          omega
        · have := h3 y hy k' b ho hb
          rw [hx, Option.some.injEq] at ha
          omega

theorem distance_some (reverse : Bool) {len : Nat} (a b : Nat) {o : SelRegion} (h : o.stop ≤ 2 * len) : ∃ k, distance reverse len a b o = some k := by
  unfold distance
  rw [if_pos h]
  repeat' split
  all_goals exact ⟨_, rfl⟩

theorem selectNext_one {o : SelRegion} {reverse wrapped : Bool} (h1 : h.nextOccurrence text reverse wrapped sel = some (some o)) (h2 : o.stop ≤ 2 * text.len) (modify : SelectionModifier) :
    selectNext [h] text reverse wrapped modify sel = modifySelection sel o modify := by
  unfold selectNext
  simp only [List.mapM_cons, List.mapM_nil, h1, Option.bind_eq_bind, Option.bind_some, Option.pure_def, List.filterMap_cons, List.filterMap_nil, id_eq]
  obtain ⟨k, hk⟩ := distance_some reverse (lastEnds sel).1 (lastEnds sel).2 h2
  simp only [closest, Option.bind_eq_bind, Option.bind_some, Option.pure_def]
  rw [hk]
  rfl

theorem selectNext_none {reverse wrapped : Bool} (h1 : h.nextOccurrence text reverse wrapped sel = some none) (modify : SelectionModifier) :
    selectNext [h] text reverse wrapped modify sel = some none := by
  unfold selectNext
  simp [h1, closest]

theorem next_none_wrapped {reverse : Bool} (h1 : h.nextOccurrence text reverse false sel = some none) : h.nextOccurrence text reverse true sel = some none := by
  unfold nextOccurrence at h1 ⊢
  by_cases hz : h.occurrences.length = 0
  · rw [if_pos hz]
  · rw [if_neg hz] at h1 ⊢
    cases reverse
    · simp only [Bool.false_eq_true, if_false] at h1 ⊢
      cases hr : (h.occurrences.regionsInRange (besideSelection sel).2 text.len).map List.head? with
      | none => rw [hr] at h1; cases h1
      | some next =>
        rw [hr] at h1
        cases next with
        | none => rfl
        | some o => cases h1
    · simp only [if_true] at h1 ⊢
      by_cases h0 : (besideSelection sel).1 = 0
      · rw [if_pos h0]
        rfl
      · rw [if_neg h0] at h1 ⊢
        cases hr : (h.occurrences.regionsInRange 0 ((besideSelection sel).1 - 1)).map List.getLast? with
        | none => rw [hr] at h1; cases h1
        | some next =>
          rw [hr] at h1
          cases next with
          | none => rfl
          | some o => cases h1

theorem mapM_none {α β : Type} {f g : α → Option (Option β)} (hfg : ∀ x, f x = some none → g x = some none) : ∀ {l : List α} {r : List (Option β)}, l.mapM f = some r →
    r.filterMap id = [] → l.mapM g = some r
  | [], r, h, _ => by simpa using h
  | x :: l, r, h, hr => by
    simp only [List.mapM_cons, Option.bind_eq_bind, Option.pure_def] at h ⊢
    cases hx : f x with
    | none => rw [hx] at h; cases h
    | some y =>
      rw [hx] at h
      simp only [Option.bind_some] at h
      cases hl : l.mapM f with
      | none => rw [hl] at h; cases h
      | some ys =>
        rw [hl] at h
        simp only [Option.bind_some, Option.some.injEq] at h
        subst h
        cases y with
        | some b => simp at hr
        | none =>
          have := mapM_none hfg (l := l) hl (by simpa using hr)
          rw [hfg x hx, this]
          rfl

theorem closest_nonempty {key : SelRegion → Option Nat} {l : List SelRegion} (h : closest key l = some none) : l = [] := by
  cases l with
  | nil => rfl
  | cons x l =>
    exfalso
    unfold closest at h
    simp only [Option.bind_eq_bind, Option.pure_def] at h
    cases hk : key x with
    | none => rw [hk] at h; cases h
    | some k =>
      rw [hk] at h
      simp only [Option.bind_some] at h
      cases hc : closest key l with
      | none => rw [hc] at h; cases h
      | some r =>
        rw [hc] at h
        simp only [Option.bind_some] at h
        cases r with
        | none => cases h
        | some y =>
          simp only at h
          cases hy : key y with
          | none => rw [hy] at h; cases h
          | some k' => rw [hy] at h; cases h

/-- **C73 (refuted).**  Whether find next should wrap around is ignored: the second search, which
is there for that, never finds anything, and the first one wraps around in any case
(`C73_next_around`). -/
theorem C73_wrap_refuted (queries : List FindState) (text : Rope) (noScroll reverse : Bool) {modify : SelectionModifier} (hm : modify ≠ .none) (sel : Selection) :
    doFindNext queries text noScroll reverse true modify sel = doFindNext queries text noScroll reverse false modify sel := by
  unfold doFindNext
  cases hs : selectNext queries text reverse false modify sel with
  | none => rfl
  | some r =>
    cases r with
    | some s => rfl
    | none =>
      simp only [Option.bind_eq_bind, Option.bind_some, and_true, Bool.false_eq_true, and_false, if_false, Option.pure_def]
      split
      · have : selectNext queries text reverse true modify sel = some none := by
          unfold selectNext at hs ⊢
          simp only [Option.bind_eq_bind, Option.pure_def] at hs ⊢
          cases hf : queries.mapM (fun q => q.nextOccurrence text reverse false sel) with
          | none => rw [hf] at hs; cases hs
          | some found =>
            rw [hf] at hs
            simp only [Option.bind_some] at hs
            generalize hkey : distance reverse text.len _ _ = key at hs ⊢
            cases hc : closest key (found.filterMap id) with
            | none => rw [hc] at hs; cases hs
            | some c =>
              rw [hc] at hs
              cases c with
              | some o =>
                exfalso
                simp only [Option.bind_some] at hs
                cases modify with
                | none => exact hm rfl
                | set => cases hs
                | add =>
                  simp only [modifySelection] at hs
                  cases ha : sel.addRegion o <;> rw [ha] at hs <;> cases hs
                | addRemovingCurrent =>
                  simp only [modifySelection, Option.bind_eq_bind, Option.pure_def, Option.bind_eq_some_iff] at hs
                  obtain ⟨_, _, _, _, hs⟩ := hs
                  cases hs
              | none =>
                have he := closest_nonempty hc
                rw [mapM_none (fun q hq => next_none_wrapped hq) hf he]
                simp only [Option.bind_some, he, closest]
        rw [this]
        rfl
      · rfl

/-- **C73.**  With several queries the occurrence that is selected is the closest of those the
queries give: one that begins at or after the selection rather than one before it, and then the
one that begins first. -/
theorem C73_closest {queries : List FindState} {wrapped : Bool} {found : List (Option SelRegion)}
    (hf : queries.mapM (fun q => q.nextOccurrence text false wrapped sel) = some found) (hin : ∀ c, some c ∈ found → c.start ≤ text.len ∧ c.stop ≤ text.len)
    (hex : ∃ c, some c ∈ found) :
    ∃ o, some o ∈ found ∧ (∀ modify, selectNext queries text false wrapped modify sel = modifySelection sel o modify) ∧
      ∀ c, some c ∈ found → ((lastEnds sel).1 ≤ c.start → (lastEnds sel).1 ≤ o.start) ∧ (((lastEnds sel).1 ≤ o.start → (lastEnds sel).1 ≤ c.start) → o.start ≤ c.start) := by
  have hmem : ∀ c, c ∈ found.filterMap id ↔ some c ∈ found := by
    intro c
    simp [List.mem_filterMap]
  rcases closest_spec (key := distance false text.len (lastEnds sel).1 (lastEnds sel).2) (l := found.filterMap id)
    (fun x hx => distance_some false _ _ (by have := (hin x ((hmem x).1 hx)).2; omega)) with ⟨h1, -⟩ | ⟨o, h1, h2, h3⟩
  · obtain ⟨c, hc⟩ := hex
    have := (hmem c).2 hc
    rw [h1] at this
    cases this
  · refine ⟨o, (hmem o).1 h1, ?_, ?_⟩
    · intro modify
      unfold selectNext
      simp only [hf, Option.bind_eq_bind, Option.bind_some, h2]
    · intro c hc
      have hco := (hin c hc).1
      have hoo := (hin o ((hmem o).1 h1)).1
      have := h3 c ((hmem c).2 hc) _ _ rfl rfl
      by_cases a1 : o.start < (lastEnds sel).1 <;> by_cases a2 : c.start < (lastEnds sel).1 <;>
        simp only [a1, a2, if_true, if_false] at this <;> constructor <;> intro _ <;> omega

/-- **C73.**  And with find previous one that ends at or before the end of the selection, and
then the one that ends last. -/
theorem C73_closest_prev {queries : List FindState} {wrapped : Bool} {found : List (Option SelRegion)}
    (hf : queries.mapM (fun q => q.nextOccurrence text true wrapped sel) = some found) (hin : ∀ c, some c ∈ found → c.start ≤ text.len ∧ c.stop ≤ text.len)
    (hsel : (lastEnds sel).2 ≤ text.len) (hex : ∃ c, some c ∈ found) :
    ∃ o, some o ∈ found ∧ (∀ modify, selectNext queries text true wrapped modify sel = modifySelection sel o modify) ∧
      ∀ c, some c ∈ found → (c.stop ≤ (lastEnds sel).2 → o.stop ≤ (lastEnds sel).2 ∨ (c.stop = 0 ∧ o.stop = text.len)) ∧
        ((o.stop ≤ (lastEnds sel).2 → c.stop ≤ (lastEnds sel).2) → c.stop ≤ o.stop) := by
  have hmem : ∀ c, c ∈ found.filterMap id ↔ some c ∈ found := by
    intro c
    simp [List.mem_filterMap]
  rcases closest_spec (key := distance true text.len (lastEnds sel).1 (lastEnds sel).2) (l := found.filterMap id)
    (fun x hx => distance_some true _ _ (by have := (hin x ((hmem x).1 hx)).2; omega)) with ⟨h1, -⟩ | ⟨o, h1, h2, h3⟩
  · obtain ⟨c, hc⟩ := hex
    have := (hmem c).2 hc
    rw [h1] at this
    cases this
  · refine ⟨o, (hmem o).1 h1, ?_, ?_⟩
    · intro modify
      unfold selectNext
      simp only [hf, Option.bind_eq_bind, Option.bind_some, h2]
    · intro c hc
      have hco := (hin c hc).2
      have hoo := (hin o ((hmem o).1 h1)).2
      have key : ∀ x : SelRegion, x.stop ≤ text.len → distance true text.len (lastEnds sel).1 (lastEnds sel).2 x =
          some (if x.stop > (lastEnds sel).2 then 2 * text.len - x.stop else (lastEnds sel).2 - x.stop) := by
        intro x hx
        unfold distance
        rw [if_pos rfl, if_pos (show x.stop ≤ 2 * text.len by omega)]
        split <;> rfl
      have := h3 c ((hmem c).2 hc) _ _ (key o hoo) (key c hco)
      by_cases a1 : o.stop > (lastEnds sel).2 <;> by_cases a2 : c.stop > (lastEnds sel).2 <;>
        simp only [a1, a2, if_true, if_false] at this <;> constructor <;> intro _ <;> omega

/-- The same command a number of times. -/
def again (f : Selection → Option Selection) : Nat → Selection → Option Selection
  | 0, sel => some sel
  | k + 1, sel => do f (← again f k sel)

theorem split_pair {l : List SelRegion} {i : Nat} (hi : i + 1 < l.length) : l = l.take i ++ l[i] :: l[i + 1] :: l.drop (i + 2) := by
  conv => lhs; rw [← List.take_append_drop i l]
  rw [List.drop_eq_getElem_cons (by omega), List.drop_eq_getElem_cons hi]

theorem next_step (ho : Occurrences text.len h.occurrences) (hn : 0 < h.occurrences.length)
    (hend : h.occurrences.length = 1 ∨ h.occurrences[0].stop < (h.occurrences[h.occurrences.length - 1]).start) (noScroll wrap : Bool)
    {i j : Nat} (hlt : i < h.occurrences.length) (hj : j < h.occurrences.length) (hmod : j = if i + 1 = h.occurrences.length then 0 else i + 1) :
    doFindNext [h] text noScroll false wrap .set [h.occurrences[i]] = some [h.occurrences[j]] := by
  have hset : ∀ {o : SelRegion}, o ∈ h.occurrences → h.nextOccurrence text false false [h.occurrences[i]] = some (some o) →
      doFindNext [h] text noScroll false wrap .set [h.occurrences[i]] = some [o] := by
    intro o hm hh
    unfold doFindNext
    rw [selectNext_one hh (by have := ho.sides hm; omega)]
    rfl
  by_cases hi : i + 1 = h.occurrences.length
  · simp only [hi, if_true] at hmod
    simp only [hmod]
    rcases hend with h1 | h1
    · -- there is only one
      have hi0 : i = 0 := by omega
      subst hi0
      have hone : h.occurrences = [h.occurrences[0]] := by
        apply List.ext_getElem (by simp [h1])
        intro j j1 j2
        have : j = 0 := by simp at j2; omega
        subst this
        rfl
      generalize h.occurrences[0] = r at hone
      have hr := ho.sides (r := r) (by rw [hone]; simp)
      have hin : InText [r] text.len := by
        intro last hlast
        rw [List.getLast?_singleton, Option.some.injEq] at hlast
        subst hlast
        omega
      have hex : ∀ o ∈ h.occurrences, ¬ After [r] o := by
        intro o hm ha
        rw [hone, List.mem_singleton] at hm
        subst hm
        have := ha o rfl
        rw [if_neg (by omega)] at this
        omega
      have hnone : h.nextOccurrence text false false [r] = some none := by
        rcases C73_next_around ho hin (List.pairwise_singleton _ _) hex with ⟨h2, -⟩ | ⟨o, h2, -, h3, -⟩
        · exact h2
        · rw [hone, List.mem_singleton] at h2
          subst h2
          exact absurd ⟨o, by simp, by omega, by omega⟩ h3
      have hnone' := next_none_wrapped hnone
      unfold doFindNext
      rw [selectNext_none hnone, selectNext_none hnone']
      simp only [Option.bind_eq_bind, Option.bind_some, Option.pure_def, Option.getD_none]
      split <;> rfl
    · refine hset (List.getElem_mem _) ?_
      have hlen : 2 ≤ h.occurrences.length := by
        apply Classical.byContradiction
        intro hc
        have h2 : h.occurrences.length = 1 := by omega
        have := ho.2 h.occurrences[0] (List.getElem_mem _)
        simp only [h2, Nat.sub_self] at h1
        omega
      refine C73_next_first ho (A := (h.occurrences.drop 1).take (h.occurrences.length - 2)) ?_ (by
        have : h.occurrences.length - 1 = i := by omega
        simpa only [this] using h1)
      apply List.ext_getElem
      · simp only [List.length_cons, List.length_append, List.length_take, List.length_drop, List.length_nil]
        omega
      · intro j j1 j2
        cases j with
        | zero => rfl
        | succ j =>
          simp only [List.getElem_cons_succ]
          by_cases hj : j < h.occurrences.length - 2
          · rw [List.getElem_append_left (by simp only [List.length_take, List.length_drop]; omega), List.getElem_take, List.getElem_drop]
            simp only [Nat.add_comm]
          · rw [List.getElem_append_right (by simp only [List.length_take, List.length_drop]; omega), List.getElem_singleton]
            have : j + 1 = i := by omega
            simp only [this]
  · simp only [hi, if_false] at hmod
    simp only [hmod]
    exact hset (List.getElem_mem _) (C73_next_turn ho (split_pair (by omega)) rfl false)

/-- **C73.**  Find next again and again selects the occurrences of a query one after the other,
and then begins anew: if the first and the last do not touch. -/
theorem C73_cycle (ho : Occurrences text.len h.occurrences) (hn : 0 < h.occurrences.length)
    (hend : h.occurrences.length = 1 ∨ h.occurrences[0].stop < (h.occurrences[h.occurrences.length - 1]).start) (noScroll wrap : Bool) (k : Nat) :
    again (doFindNext [h] text noScroll false wrap .set) k [h.occurrences[0]] =
      some [h.occurrences[k % h.occurrences.length]'(Nat.mod_lt _ hn)] := by
  induction k with
  | zero => simp [again]
  | succ k ih =>
    simp only [again, ih, Option.bind_eq_bind, Option.bind_some]
    have hlt := Nat.mod_lt k hn
    have hmod : (k + 1) % h.occurrences.length = if k % h.occurrences.length + 1 = h.occurrences.length then 0 else k % h.occurrences.length + 1 := by
      rw [Nat.add_mod]
      by_cases h1 : h.occurrences.length = 1
      · rw [h1]
        simp [Nat.mod_one]
      · rw [Nat.mod_eq_of_lt (show 1 < h.occurrences.length by omega)]
        split
        · rename_i he
          rw [he, Nat.mod_self]
        · exact Nat.mod_eq_of_lt (by omega)
    exact next_step ho hn hend noScroll wrap hlt (Nat.mod_lt _ hn) hmod

/-- A region that comes after all others is put at the end. -/
theorem add_end {s : Selection} {r : SelRegion} (hs : Selection.Inv (s ++ [r])) (hne : ∀ x ∈ s ++ [r], x.lo < x.hi) : s.addRegion r = some (s ++ [r]) := by
  have hpw := hs
  unfold Selection.Inv at hpw
  rw [List.pairwise_append] at hpw
  have hr := hne r (by simp)
  have hb := fun x hx => (hpw.2.2 x hx r (by simp)).1
  obtain ⟨pre, mid, post, R, h1, h2, h3, h4, h5, h6, -⟩ := C32_add (s := s) hpw.1 r
  have hmid : mid = [] := by
    cases mid with
    | nil => rfl
    | cons m mid =>
      have hm : m ∈ s := by rw [h1]; simp
      have := (h6 m (by simp)).2
      have := hb m hm
      have := hne m (by simp [hm])
      have := caret_iff m
      have := caret_iff r
      unfold Meet at *
      omega
  have hpost : post = [] := by
    cases post with
    | nil => rfl
    | cons m post =>
      have hm : m ∈ s := by rw [h1]; simp
      unfold Selection.Inv at h3
      have := ((List.pairwise_cons.1 (List.pairwise_append.1 h3).2.1).1 m (by simp)).1
      rw [h4 hmid] at this
      have := hb m hm
      have := hne m (by simp [hm])
      omega
  rw [h2, h4 hmid, hpost]
  subst hmid hpost
  simp only [List.append_nil] at h1
  rw [h1]

/-- **C73.**  Find next that adds to the selection selects the first occurrences, one more each
time. -/
theorem C73_add (ho : Occurrences text.len h.occurrences) (hn : 0 < h.occurrences.length) (noScroll wrap : Bool) (k : Nat) (hk : k < h.occurrences.length) :
    again (doFindNext [h] text noScroll false wrap .add) k [h.occurrences[0]] = some (h.occurrences.take (k + 1)) := by
  induction k with
  | zero =>
    simp only [again]
    rw [List.take_succ_eq_append_getElem hn]
    rfl
  | succ k ih =>
    simp only [again, ih (by omega), Option.bind_eq_bind, Option.bind_some]
    have hl : (h.occurrences.take (k + 1)).getLast? = some h.occurrences[k] := by
      rw [List.take_succ_eq_append_getElem (show k < h.occurrences.length by omega)]
      rw [List.getLast?_concat]
    have hnext := C73_next_turn ho (split_pair hk) hl false
    unfold doFindNext
    rw [selectNext_one hnext (by have := ho.sides (List.getElem_mem hk); omega)]
    have hsub : (h.occurrences.take (k + 1 + 1)).Sublist h.occurrences := List.take_sublist _ _
    have hs := List.Pairwise.sublist hsub ho.1
    rw [List.take_succ_eq_append_getElem hk] at hs hsub ⊢
    have := add_end hs (fun x hx => (ho.sides (hsub.mem hx)).2.2.1)
    simp only [modifySelection, this]
    rfl

/-- **C73.**  Find next that replaces the last selection puts the occurrence in its place, and
keeps the others; a caret stays. -/
theorem C73_add_removing {S : Selection} {r : SelRegion} (hs : Selection.Inv (S ++ [r])) (o : SelRegion) :
    modifySelection (S ++ [r]) o .addRemovingCurrent = if r.start = r.stop then ((S ++ [r]).addRegion o).map some else (S.addRegion o).map some := by
  have hw : withoutLast (S ++ [r]) = some (if r.start = r.stop then S ++ [r] else S) := by
    unfold withoutLast
    rw [List.getLast?_concat]
    simp only [SelRegion.isCaret, beq_iff_eq]
    by_cases hc : r.start = r.stop
    · rw [if_pos hc, if_pos hc]
    · rw [if_neg hc, if_neg hc]
      have h1 := caret_iff r
      have h2 := lo_le r
      have hlt : r.lo < r.hi := by omega
      rw [C32_delete_partial hs (lo_le r) (.inl hlt), List.filter_append]
      unfold Selection.Inv at hs
      have hb := (List.pairwise_append.1 hs).2.2
      have e1 : S.filter (fun x => !(decide (r.lo < x.hi) && decide (x.lo < r.hi))) = S := by
        rw [List.filter_eq_self]
        intro x hx
        have := (hb x hx r (by simp)).1
        have h3 : ¬ r.lo < x.hi := by omega
        simp [h3]
      rw [e1, List.filter_cons_of_neg (by simp [hlt])]
      simp
  simp only [modifySelection, hw, Option.bind_eq_bind, Option.bind_some, Option.pure_def]
  split
  · cases (S ++ [r]).addRegion o <;> rfl
  · cases S.addRegion o <;> rfl

theorem add_in_order : ∀ (l s : Selection), Selection.Inv (s ++ l) → (∀ x ∈ s ++ l, x.lo < x.hi) → l.foldlM (fun s o => Selection.addRegion s o) s = some (s ++ l)
  | [], s, _, _ => by simp
  | x :: l, s, hs, hne => by
    have hs' : Selection.Inv ((s ++ [x]) ++ l) := by simpa using hs
    have hs1 := hs'
    unfold Selection.Inv at hs1
    rw [List.pairwise_append] at hs1
    simp only [List.foldlM_cons, Option.bind_eq_bind, add_end hs1.1 (fun y hy => hne y (by simp at hy ⊢; rcases hy with h | h <;> simp [h])), Option.bind_some]
    rw [add_in_order l (s ++ [x]) hs' (fun y hy => hne y (by simpa using hy))]
    simp

/-- **C73.**  Find all selects the occurrences of the query. -/
theorem C73_find_all (ho : Occurrences text.len h.occurrences) (hn : h.occurrences ≠ []) (sel : Selection) : doFindAll [h] sel = some h.occurrences := by
  unfold doFindAll
  simp only [List.flatMap_cons, List.flatMap_nil, List.append_nil, add_in_order h.occurrences [] (by simpa using ho.1) (fun x hx => (ho.sides (by simpa using hx)).2.2.1),
    Option.bind_eq_bind, Option.bind_some, List.nil_append, Option.pure_def]
  cases hh : h.occurrences with
  | nil => exact absurd hh hn
  | cons x l => rfl

/-- **C73.**  With several queries it selects what occurs of any of them; overlapping
occurrences become one selection. -/
theorem C73_find_all_queries (queries : List FindState) (sel : Selection) (hn : ∃ q ∈ queries, q.occurrences ≠ []) :
    ∃ s, doFindAll queries sel = some s ∧ Selection.Inv s ∧ (∀ k, Has s k ↔ ∃ q ∈ queries, Has q.occurrences k) ∧
      ∀ q ∈ queries, ∀ o ∈ q.occurrences, ∃ R ∈ s, Within o R := by
  obtain ⟨s, h1, h2, h3, -, h5⟩ := fold_add (fun o : SelRegion => o) (queries.flatMap FindState.occurrences) (s := []) List.Pairwise.nil
  have hin : ∀ q ∈ queries, ∀ o ∈ q.occurrences, ∃ R ∈ s, Within o R := fun q hq o ho => h5 o (List.mem_flatMap.2 ⟨q, hq, ho⟩)
  have hs : s.isEmpty = false := by
    obtain ⟨q, hq, hne⟩ := hn
    cases ho : q.occurrences with
    | nil => exact absurd ho hne
    | cons o l =>
      obtain ⟨R, hR, -⟩ := hin q hq o (by rw [ho]; simp)
      cases s with
      | nil => cases hR
      | cons _ _ => rfl
  refine ⟨s, ?_, h2, ?_, hin⟩
  · unfold doFindAll
    simp only [h1, Option.bind_eq_bind, Option.bind_some, hs, Bool.false_eq_true, if_false, Option.pure_def]
  · intro k
    rw [h3 k]
    constructor
    · rintro (⟨r, hr, -⟩ | ⟨o, ho, o1, o2⟩)
      · cases hr
      · obtain ⟨q, hq, hoq⟩ := List.mem_flatMap.1 ho
        exact ⟨q, hq, o, hoq, o1, o2⟩
    · rintro ⟨q, hq, o, ho, o1, o2⟩
      exact .inr ⟨o, List.mem_flatMap.2 ⟨q, hq, ho⟩, o1, o2⟩

/-! ### Cases -/

theorem note_occurrences {cs pat : List Char} {occ : Selection} (hs : (Find.enc cs).length ≤ 1024) (hp : pat ≠ [])
    (h : ((query pat false []).updateFind someLower false (note cs) 0 (Find.enc cs).length false).map FindState.occurrences = some occ) :
    Occurrences (note cs).len occ := by
  have := Sound.occurrences (by simpa [Find.Regular] using hp) (note_exact hs hp h).1
  rw [note_text] at this
  exact this

/-- Three occurrences of "ab", the first two next to each other. -/
example : Occurrences (note ['a', 'b', 'a', 'b', ' ', 'a', 'b']).len [.new 0 2, .new 2 4, .new 5 7] :=
  note_occurrences (pat := ['a', 'b']) (by decide) (by decide) (by decide +kernel)

/-- Find next and find previous from the second of them, and from a caret in it. -/
example : (query ['a', 'b'] false [.new 0 2, .new 2 4, .new 5 7]).nextOccurrence (note ['a', 'b', 'a', 'b', ' ', 'a', 'b']) false false [.new 2 4] = some (some (.new 5 7)) ∧
    (query ['a', 'b'] false [.new 0 2, .new 2 4, .new 5 7]).nextOccurrence (note ['a', 'b', 'a', 'b', ' ', 'a', 'b']) true false [.new 2 4] = some (some (.new 0 2)) ∧
    (query ['a', 'b'] false [.new 0 2, .new 2 4, .new 5 7]).nextOccurrence (note ['a', 'b', 'a', 'b', ' ', 'a', 'b']) false false [.caret 3] = some (some (.new 2 4)) ∧
    After [.caret 3] (.new 2 4) ∧ ¬ After [.new 2 4] (.new 2 4) := by
  refine ⟨by decide +kernel, by decide +kernel, by decide +kernel, ?_, ?_⟩
  · intro last h
    cases h
    decide
  · intro h
    exact absurd (h _ rfl) (by decide)

/-- Four times find next: once around. -/
example : again (doFindNext [query ['a', 'b'] false [.new 0 2, .new 2 4, .new 5 7]] (note ['a', 'b', 'a', 'b', ' ', 'a', 'b']) true false true .set) 4 [.new 0 2] = some [.new 2 4] :=
  C73_cycle (h := query ['a', 'b'] false [.new 0 2, .new 2 4, .new 5 7]) (note_occurrences (pat := ['a', 'b']) (by decide) (by decide) (by decide +kernel)) (by decide) (.inr (by decide)) true true 4

/-- Two queries: the closest occurrence is selected. -/
example : selectNext [query ['b'] false [.new 3 4], query ['c'] false [.new 0 1, .new 2 3]] (note ['c', 'a', 'c', 'b']) false false .set [.new 1 2] = some (some [.new 2 3]) ∧
    [query ['b'] false [.new 3 4], query ['c'] false [.new 0 1, .new 2 3]].mapM (fun q => q.nextOccurrence (note ['c', 'a', 'c', 'b']) false false [.new 1 2]) =
      some [some (.new 3 4), some (.new 2 3)] := by
  constructor <;> decide +kernel

/-- **C73** refuted: with several queries the occurrence that is selected need not be the
closest.  "b" and "c" in "cacb", from a caret after the first letter: "c" offers the one the caret
is at the end of, and then "b" wins, though there is a "c" before it. -/
theorem C73_closest_refuted : ∃ (cs : List Char) (occ occ' : Selection), Exact someLower (note cs).text .exact ['b'] occ ∧ Exact someLower (note cs).text .exact ['c'] occ' ∧
    occ = [.new 3 4] ∧ occ' = [.new 0 1, .new 2 3] ∧
    doFindNext [query ['b'] false occ, query ['c'] false occ'] (note cs) true false true .set [.caret 1] = some [.new 3 4] :=
  ⟨['c', 'a', 'c', 'b'], _, _, (note_exact (by decide) (by decide) (by decide +kernel)).2, (note_exact (by decide) (by decide) (by decide +kernel)).2, rfl, rfl,
    by decide +kernel⟩

/-- **C73** refuted: find previous leaves out an occurrence of one byte that touches both of its
neighbours.  "a" in "aaa": from the third it goes to the first. -/
theorem C73_prev_refuted : ∃ (cs pat : List Char) (occ : Selection), Exact someLower (note cs).text .exact pat occ ∧ occ = [.new 0 1, .new 1 2, .new 2 3] ∧
    doFindNext [query pat false occ] (note cs) true true true .set [.new 2 3] = some [.new 0 1] :=
  ⟨['a', 'a', 'a'], ['a'], _, (note_exact (by decide) (by decide) (by decide +kernel)).2, rfl, by decide +kernel⟩

/-- **C73** refuted: find next does not get from the last occurrence to the first if they touch.
"a" in "aa": from the second it goes nowhere. -/
theorem C73_next_refuted : ∃ (cs pat : List Char) (occ : Selection), Exact someLower (note cs).text .exact pat occ ∧ occ = [.new 0 1, .new 1 2] ∧
    doFindNext [query pat false occ] (note cs) true false true .set [.new 1 2] = some [.new 1 2] :=
  ⟨['a', 'a'], ['a'], _, (note_exact (by decide) (by decide) (by decide +kernel)).2, rfl, by decide +kernel⟩

/-- **C73** refuted: from a caret at the end of an occurrence find next selects that occurrence,
which is not after the caret. -/
theorem C73_caret_refuted : ∃ (cs pat : List Char) (occ : Selection), Exact someLower (note cs).text .exact pat occ ∧ occ = [.new 0 1, .new 2 3] ∧
    doFindNext [query pat false occ] (note cs) true false true .set [.caret 1] = some [.new 0 1] :=
  ⟨['a', ' ', 'a'], ['a'], _, (note_exact (by decide) (by decide) (by decide +kernel)).2, rfl, by decide +kernel⟩

end Xi
