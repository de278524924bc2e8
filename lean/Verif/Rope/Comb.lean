import Verif.Rope.RebaseMask

/-!
# Combining two extensions of one text

`Comb p q after xs ys zs`: `xs` extends a common text by the elements marked by
`p`, `ys` extends it by the elements marked by `q`, and `zs` has both additions;
at the same place those of `p` come first when `after`, else those of `q`.
-/

namespace Xi

variable {β : Type}

inductive Comb (p q : β → Bool) (after : Bool) : List β → List β → List β → Prop
  | nil : Comb p q after [] [] []
  | both {xs ys zs} (x : β) : p x = false → q x = false → Comb p q after xs ys zs →
      Comb p q after (x :: xs) (x :: ys) (x :: zs)
  | left {xs ys zs} (x : β) : p x = true → q x = false → (after = true ∨ ∀ y ∈ ys.head?, q y = false) →
      Comb p q after xs ys zs → Comb p q after (x :: xs) ys (x :: zs)
  | right {xs ys zs} (y : β) : q y = true → p y = false → (after = true → ∀ x ∈ xs.head?, p x = false) →
      Comb p q after xs ys zs → Comb p q after xs (y :: ys) (y :: zs)

namespace Comb

variable {p q : β → Bool} {after : Bool} {xs ys zs : List β}

theorem swap (h : Comb p q after xs ys zs) : Comb q p (!after) ys xs zs := by
  induction h with
  | nil => exact .nil
  | both x h1 h2 _ ih => exact .both x h2 h1 ih
  | left x h1 h2 h3 _ ih =>
    refine .right x h1 h2 ?_ ih
    intro ha
    rcases h3 with h3 | h3
    · simp [h3] at ha
    · exact h3
  | right y h1 h2 h3 _ ih =>
    refine .left y h1 h2 ?_ ih
    cases after with
    | true => exact Or.inr (h3 rfl)
    | false => exact Or.inl rfl

theorem filter_left (h : Comb p q after xs ys zs) : zs.filter (fun z => !q z) = xs := by
  induction h with
  | nil => rfl
  | both x h1 h2 _ ih => simp [h2, ih]
  | left x h1 h2 _ _ ih => simp [h2, ih]
  | right y h1 _ _ _ ih => simp [h1, ih]

theorem filter_right (h : Comb p q after xs ys zs) : zs.filter (fun z => !p z) = ys := h.swap.filter_left

theorem unique (h : Comb p q after xs ys zs) {zs' : List β} (h' : Comb p q after xs ys zs') : zs = zs' := by
  induction h generalizing zs' with
  | nil => cases h'; rfl
  | both x h1 h2 _ ih =>
    cases h' with
    | both _ _ _ h => rw [ih h]
    | left _ g1 => rw [h1] at g1; cases g1
    | right _ g1 => rw [h2] at g1; cases g1
  | left x h1 h2 h3 _ ih =>
    cases h' with
    | both _ g1 => rw [h1] at g1; cases g1
    | left _ _ _ _ h => rw [ih h]
    | right y g1 g2 g3 h =>
      rcases h3 with h3 | h3
      · have := g3 h3 x (by simp); rw [h1] at this; cases this
      · have := h3 y (by simp); rw [g1] at this; cases this
  | right y h1 h2 h3 _ ih =>
    cases h' with
    | both _ _ g1 => rw [h1] at g1; cases g1
    | right _ _ _ _ h => rw [ih h]
    | left x g1 g2 g3 h =>
      rcases g3 with g3 | g3
      · have := h3 g3 x (by simp); rw [g1] at this; cases this
      · have := g3 y (by simp); rw [h1] at this; cases this

theorem exists_of_filter (after : Bool) : ∀ (xs ys : List β),
    xs.filter (fun x => !p x) = ys.filter (fun y => !q y) → (∀ x ∈ xs, q x = false) → (∀ y ∈ ys, p y = false) →
    ∃ zs, Comb p q after xs ys zs := by
  intro xs
  induction xs with
  | nil =>
    intro ys
    induction ys with
    | nil => intros; exact ⟨[], .nil⟩
    | cons y ys ih =>
      intro h1 h2 h3
      have hq : q y = true := by
        by_cases hq : q y = true
        · exact hq
        · simp at hq; simp [hq] at h1
      obtain ⟨zs, hz⟩ := ih (by simpa [hq] using h1) h2 (fun y hy => h3 y (by simp [hy]))
      exact ⟨y :: zs, .right y hq (h3 y (by simp)) (by simp) hz⟩
  | cons x xs ihx =>
    intro ys
    induction ys with
    | nil =>
      intro h1 h2 h3
      have hp : p x = true := by
        by_cases hp : p x = true
        · exact hp
        · simp at hp; simp [hp] at h1
      obtain ⟨zs, hz⟩ := ihx [] (by simpa [hp] using h1) (fun x hx => h2 x (by simp [hx])) h3
      exact ⟨x :: zs, .left x hp (h2 x (by simp)) (by simp) hz⟩
    | cons y ys ih =>
      intro h1 h2 h3
      by_cases hleft : p x = true ∧ (after = true ∨ q y = false)
      · obtain ⟨zs, hz⟩ := ihx (y :: ys) (by simpa [hleft.1] using h1) (fun x hx => h2 x (by simp [hx])) h3
        exact ⟨x :: zs, .left x hleft.1 (h2 x (by simp)) (by simpa using hleft.2) hz⟩
      · by_cases hq : q y = true
        · obtain ⟨zs, hz⟩ := ih (by simpa [hq] using h1) h2 (fun y hy => h3 y (by simp [hy]))
          refine ⟨y :: zs, .right y hq (h3 y (by simp)) ?_ hz⟩
          intro ha
          simp only [List.head?_cons, Option.mem_def, Option.some.injEq, forall_eq']
          by_cases hp : p x = true
          · exact absurd ⟨hp, Or.inl ha⟩ hleft
          · simpa using hp
        · have hq : q y = false := by simpa using hq
          have hp : p x = false := by
            by_cases hp : p x = true
            · exact absurd ⟨hp, Or.inr hq⟩ hleft
            · simpa using hp
          simp [hp, hq] at h1
          obtain ⟨h1, h1'⟩ := h1
          subst h1
          obtain ⟨zs, hz⟩ := ihx ys h1' (fun x hx => h2 x (by simp [hx])) (fun y hy => h3 y (by simp [hy]))
          exact ⟨x :: zs, .both x hp hq hz⟩

/-- Indicator of a predicate. -/
def mk (p : β → Bool) (x : β) : Nat := if p x then 1 else 0

theorem mk_true {x : β} (h : p x = true) : mk p x = 1 := by simp [mk, h]
theorem mk_false {x : β} (h : p x = false) : mk p x = 0 := by simp [mk, h]

theorem head_map {f : β → Nat} {v : Nat} {l : List β} (h : ∀ y ∈ l.head?, f y = v) :
    ∀ i ∈ (l.map f).head?, i = v := by
  cases l with
  | nil => simp
  | cons a l => simpa using h

theorem rebase (h : Comb p q after xs ys zs) :
    rebaseMask after (ys.map (mk q)) (xs.map (mk p)) = zs.map (mk q) := by
  induction h with
  | nil => simp [rebaseMask_nil]
  | both x h1 h2 _ ih => simp only [List.map_cons, mk_false h1, mk_false h2, rebaseMask_zero_zero, ih]
  | left x h1 h2 h3 _ ih =>
    simp only [List.map_cons, mk_true h1, mk_false h2]
    rw [rebaseMask_right' _ _ (by simp) (h3.imp_right (fun h => head_map (fun y hy => mk_false (h y hy)))), ih]
  | right y h1 h2 h3 _ ih =>
    simp only [List.map_cons, mk_true h1]
    rw [rebaseMask_left' _ _ (by simp) (fun ha => head_map (fun x hx => mk_false (h3 ha x hx))), ih]

theorem expand (h : Comb p q after xs ys zs) :
    expandMask (zs.map (mk q)) (xs.map (mk p)) = zs.map (mk p) := by
  induction h with
  | nil => rfl
  | both x h1 h2 _ ih => simp [mk_false h2, ih]
  | left x h1 h2 h3 _ ih => simp [mk_false h2, ih]
  | right y h1 h2 h3 _ ih => simp [mk_true h1, mk_false h2, ih]

theorem weave_new (h : Comb p q after xs ys zs) :
    weave (zs.map (mk q)) xs (ys.filter q) = zs := by
  induction h with
  | nil => rfl
  | both x h1 h2 _ ih => simp [mk_false h2, h2, ih]
  | left x h1 h2 h3 _ ih => simp [mk_false h2, ih]
  | right y h1 h2 h3 _ ih => simp [mk_true h1, h1, ih]

theorem map_left {f : β → Nat} (h : Comb p q after xs ys zs) (hf : ∀ z ∈ zs, p z = true → f z = 0) :
    expandMask (zs.map (mk p)) (ys.map f) = zs.map f := by
  induction h with
  | nil => rfl
  | both x h1 h2 _ ih => simp [mk_false h1, ih (fun z hz => hf z (by simp [hz]))]
  | left x h1 h2 h3 _ ih =>
    simp [mk_true h1, ih (fun z hz => hf z (by simp [hz])), hf x (by simp) h1]
  | right y h1 h2 h3 _ ih => simp [mk_false h2, ih (fun z hz => hf z (by simp [hz]))]

/-- Adding nothing. -/
theorem trivial_left (after : Bool) (ys : List β) (hp : ∀ y ∈ ys, p y = false) :
    Comb p q after (ys.filter (fun y => !q y)) ys ys := by
  induction ys with
  | nil => exact .nil
  | cons y ys ih =>
    have ih := ih (fun y hy => hp y (by simp [hy]))
    by_cases hq : q y = true
    · rw [List.filter_cons, if_neg (by simp [hq])]
      refine .right y hq (hp y (by simp)) ?_ ih
      intro _ x hx
      exact hp x (by
        have := List.mem_of_mem_head? hx
        exact List.mem_cons_of_mem _ (List.mem_filter.1 this).1)
    · have hq : q y = false := by simpa using hq
      rw [List.filter_cons, if_pos (by simp [hq])]
      exact .both y (hp y (by simp)) hq ih

/-- Combining with two successive extensions is combining with their union. -/
theorem compose {p1 p2 : β → Bool} {x1 x2 ys z1 z2 : List β} (h1 : Comb p1 q after x1 ys z1)
    (h2 : Comb p2 q after x2 z1 z2) (hx : x2.filter (fun x => !p2 x) = x1) :
    Comb (fun x => p1 x || p2 x) q after x2 ys z2 := by
  induction h2 generalizing x1 ys with
  | nil => cases h1; exact .nil
  | both x a1 a2 _ ih =>
    rename_i xs2 z1' z2'
    simp only [List.filter_cons, a1, Bool.not_false, if_true] at hx
    subst hx
    cases h1 with
    | both _ b1 _ h => exact .both x (by simp [a1, b1]) a2 (ih h rfl)
    | left _ b1 _ b3 h => exact .left x (by simp [b1]) a2 b3 (ih h rfl)
    | right _ b1 => rw [a2] at b1; cases b1
  | left x a1 a2 a3 _ ih =>
    rename_i xs2 z1' z2'
    simp only [List.filter_cons, a1, Bool.not_true, Bool.false_eq_true, if_false] at hx
    refine .left x (by simp [a1]) a2 ?_ (ih h1 hx)
    rcases a3 with a3 | a3
    · exact Or.inl a3
    · by_cases ha : after = true
      · exact Or.inl ha
      · right
        cases h1 with
        | nil => simp
        | both y b1 b2 h => simpa using b2
        | left y b1 b2 b3 h =>
          rcases b3 with b3 | b3
          · exact absurd b3 ha
          · exact b3
        | right y b1 b2 b3 h =>
          have := a3 y (by simp)
          rw [b1] at this; cases this
  | right y a1 a2 a3 hc ih =>
    rename_i xs2 z1' z2'
    cases h1 with
    | both _ _ b => rw [a1] at b; cases b
    | left _ _ b => rw [a1] at b; cases b
    | right _ b1 b2 b3 h =>
      refine .right y a1 (by simp [a2, b2]) ?_ (ih h hx)
      intro ha x hxx
      have h4 := a3 ha x hxx
      cases xs2 with
      | nil => simp at hxx
      | cons x' xs2 =>
        simp at hxx
        subst hxx
        simp only [List.filter_cons, h4, Bool.not_false, if_true] at hx
        have := b3 ha x' (by rw [← hx]; simp)
        simp [this, h4]

theorem congr {p' q' : β → Bool} (h : Comb p q after xs ys zs) (hp : ∀ z ∈ zs, p z = p' z) (hq : ∀ z ∈ zs, q z = q' z) :
    Comb p' q' after xs ys zs := by
  induction h with
  | nil => exact .nil
  | both x h1 h2 hc ih =>
    have h3 := hp x (by simp); have h4 := hq x (by simp)
    exact .both x (by rw [← h3, h1]) (by rw [← h4, h2]) (ih (fun z hz => hp z (by simp [hz])) (fun z hz => hq z (by simp [hz])))
  | left x h1 h2 h3 hc ih =>
    have h5 := hp x (by simp); have h6 := hq x (by simp)
    refine .left x (by rw [← h5, h1]) (by rw [← h6, h2]) ?_ (ih (fun z hz => hp z (by simp [hz])) (fun z hz => hq z (by simp [hz])))
    rcases h3 with h3 | h3
    · exact Or.inl h3
    · right
      intro y hy
      rw [← hq y ?_, h3 y hy]
      have := List.mem_of_mem_head? hy
      rw [← hc.filter_right] at this
      simp [(List.mem_filter.1 this).1]
  | right y h1 h2 h3 hc ih =>
    have h5 := hp y (by simp); have h6 := hq y (by simp)
    refine .right y (by rw [← h6, h1]) (by rw [← h5, h2]) ?_ (ih (fun z hz => hp z (by simp [hz])) (fun z hz => hq z (by simp [hz])))
    intro ha x hx
    rw [← hp x ?_, h3 ha x hx]
    have := List.mem_of_mem_head? hx
    rw [← hc.filter_left] at this
    simp [(List.mem_filter.1 this).1]

end Comb
end Xi
