import Verif.Rope.MaskLemmas

/-! # Combining two insertion masks

`rebaseMask after I X`: both `I` and `X` mark positions added to one common base
text.  The result marks the positions added by `I` in the text that has both
additions; at the same place `X`'s additions come first when `after`, else `I`'s. -/

namespace Xi

variable {α : Type}

def rebaseMask (after : Bool) : List Nat → List Nat → List Nat
  | [], X => X.map (fun _ => 0)
  | i :: I, [] => i :: rebaseMask after I []
  | i :: I, x :: X =>
    if i = 0 ∧ x = 0 then 0 :: rebaseMask after I X
    else if x ≠ 0 ∧ (after = true ∨ i = 0) then 0 :: rebaseMask after (i :: I) X
    else i :: rebaseMask after I (x :: X)
termination_by I X => I.length + X.length

variable {after : Bool}

theorem rebaseMask_nil (X : List Nat) : rebaseMask after [] X = List.replicate X.length 0 := by
  rw [rebaseMask]; exact List.map_const' ..

theorem rebaseMask_zero_zero (I X) : rebaseMask after (0 :: I) (0 :: X) = 0 :: rebaseMask after I X := by
  rw [rebaseMask]; simp

theorem rebaseMask_cons_nil (i I) : rebaseMask after (i :: I) [] = i :: rebaseMask after I [] := by
  rw [rebaseMask]

theorem rebaseMask_right {i x : Nat} (I X) (hx : x ≠ 0) (h : after = true ∨ i = 0) :
    rebaseMask after (i :: I) (x :: X) = 0 :: rebaseMask after (i :: I) X := by
  rw [rebaseMask, if_neg (by omega), if_pos ⟨hx, h⟩]

theorem rebaseMask_left {i x : Nat} (I X) (hi : i ≠ 0) (h : after = true → x = 0) :
    rebaseMask after (i :: I) (x :: X) = i :: rebaseMask after I (x :: X) := by
  rw [rebaseMask, if_neg (by omega), if_neg]
  rintro ⟨hx, h1 | h1⟩
  · exact hx (h h1)
  · exact hi h1

theorem rebaseMask_zeros (k : Nat) (I X) :
    rebaseMask after (List.replicate k 0 ++ I) (List.replicate k 0 ++ X) =
      List.replicate k 0 ++ rebaseMask after I X := by
  induction k with
  | zero => simp
  | succ k ih => simp [List.replicate_succ, rebaseMask_zero_zero, ih]

theorem rebaseMask_ones (k : Nat) (I X) (h : after = true → ∀ x ∈ X.head?, x = 0) :
    rebaseMask after (List.replicate k 1 ++ I) X = List.replicate k 1 ++ rebaseMask after I X := by
  induction k with
  | zero => simp
  | succ k ih =>
    simp only [List.replicate_succ, List.cons_append]
    cases X with
    | nil => rw [rebaseMask_cons_nil, ih]
    | cons x X => rw [rebaseMask_left _ _ (by simp) (fun ha => h ha x (by simp)), ih]

theorem rebaseMask_marked (M I X : List Nat) (hM : ∀ x ∈ M, x ≠ 0)
    (h : after = true ∨ ∀ i ∈ I.head?, i = 0) :
    rebaseMask after I (M ++ X) = List.replicate M.length 0 ++ rebaseMask after I X := by
  induction M with
  | nil => simp
  | cons m M ih =>
    have ih := ih (fun x hx => hM x (by simp [hx]))
    cases I with
    | nil => simp [rebaseMask_nil, ← List.replicate_succ, List.replicate_append_replicate]; omega
    | cons i I =>
      simp only [List.cons_append, List.length_cons, List.replicate_succ]
      rw [rebaseMask_right _ _ (hM m (by simp)) (by simpa using h), ih]

/-- Induction following the definition of `rebaseMask` on masks over the same
base. -/
theorem rebase_induction {motive : List Nat → List Nat → Prop}
    (nil : motive [] [])
    (both : ∀ I X, zeros I = zeros X → motive I X → motive (0 :: I) (0 :: X))
    (right : ∀ I x X, x ≠ 0 → zeros I = zeros X → (after = true ∨ ∀ i ∈ I.head?, i = 0) →
      motive I X → motive I (x :: X))
    (left : ∀ i I X, i ≠ 0 → zeros I = zeros X → (after = true → ∀ x ∈ X.head?, x = 0) →
      motive I X → motive (i :: I) X) :
    ∀ I X, zeros I = zeros X → motive I X := by
  intro I X
  fun_induction rebaseMask after I X with
  | case1 X =>
    intro h
    induction X with
    | nil => exact nil
    | cons x X ih =>
      have hx : x ≠ 0 := by rintro rfl; simp at h
      rw [zeros_cons_ne hx] at h
      exact right [] x X hx h (by simp) (ih h)
  | case2 i I ih =>
    intro h
    have hi : i ≠ 0 := by rintro rfl; simp at h
    rw [zeros_cons_ne hi] at h
    exact left i I [] hi h (by simp) (ih h)
  | case3 i I x X hc ih =>
    obtain ⟨rfl, rfl⟩ := hc
    intro h
    simp at h
    exact both I X h (ih h)
  | case4 i I x X h1 h2 ih =>
    intro h
    rw [zeros_cons_ne h2.1] at h
    exact right (i :: I) x X h2.1 h (by simpa using h2.2) (ih h)
  | case5 i I x X h1 h2 ih =>
    intro h
    have hi : i ≠ 0 := by
      rintro rfl
      by_cases hx : x = 0
      · exact h1 ⟨rfl, hx⟩
      · exact h2 ⟨hx, Or.inr rfl⟩
    rw [zeros_cons_ne hi] at h
    refine left i I (x :: X) hi h ?_ (ih h)
    intro ha
    simp only [List.head?_cons, Option.mem_def, Option.some.injEq, forall_eq']
    by_cases hx : x = 0
    · exact hx
    · exact absurd ⟨hx, Or.inl ha⟩ h2

theorem rebaseMask_right' {x : Nat} (I X) (hx : x ≠ 0) (h : after = true ∨ ∀ i ∈ I.head?, i = 0) :
    rebaseMask after I (x :: X) = 0 :: rebaseMask after I X := by
  have := rebaseMask_marked (after := after) [x] I X (by simpa using hx) h
  simpa using this

theorem rebaseMask_left' {i : Nat} (I X) (hi : i ≠ 0) (h : after = true → ∀ x ∈ X.head?, x = 0) :
    rebaseMask after (i :: I) X = i :: rebaseMask after I X := by
  cases X with
  | nil => exact rebaseMask_cons_nil _ _
  | cons x X => exact rebaseMask_left _ _ hi (fun ha => h ha x (by simp))

theorem rebaseMask_zeros_eq : ∀ I X, zeros I = zeros X → zeros (rebaseMask after I X) = X.length := by
  refine rebase_induction (after := after) ?_ ?_ ?_ ?_
  · simp [rebaseMask_nil]
  · intro I X h ih; simp [rebaseMask_zero_zero, ih]
  · intro I x X hx h hs ih; simp [rebaseMask_right' _ _ hx hs, ih]
  · intro i I X hi h hs ih; simp [rebaseMask_left' _ _ hi hs, zeros_cons_ne hi, ih]

theorem rebaseMask_length : ∀ I X, zeros I = zeros X →
    (rebaseMask after I X).length = X.length + (I.length - zeros I) := by
  refine rebase_induction (after := after) ?_ ?_ ?_ ?_
  · simp [rebaseMask_nil]
  · intro I X h ih; simp [rebaseMask_zero_zero, ih]; omega
  · intro I x X hx h hs ih; simp [rebaseMask_right' _ _ hx hs, ih]; omega
  · intro i I X hi h hs ih
    have := zeros_le_length I
    simp [rebaseMask_left' _ _ hi hs, zeros_cons_ne hi, ih]; omega

theorem weave_left {i : Nat} (hi : i ≠ 0) (I : List Nat) (xs : List α) (y ys) :
    weave (i :: I) xs (y :: ys) = y :: weave I xs ys := by
  obtain ⟨k, rfl⟩ := Nat.exists_eq_succ_of_ne_zero hi
  simp

theorem expandMask_left {i : Nat} (hi : i ≠ 0) (I xs : List Nat) :
    expandMask (i :: I) xs = 0 :: expandMask I xs := by
  obtain ⟨k, rfl⟩ := Nat.exists_eq_succ_of_ne_zero hi
  simp

/-- The key fact: insert into the text with `X`'s additions, then take those
additions out again, is inserting into the text without them. -/
theorem keep_rebase_weave : ∀ I X, zeros I = zeros X → ∀ (U s : List α), U.length = X.length →
    s.length = I.length - zeros I →
    keep (expandMask (rebaseMask after I X) X) (weave (rebaseMask after I X) U s) =
      weave I (keep X U) s := by
  refine rebase_induction (after := after) ?_ ?_ ?_ ?_
  · intro U s h1 h2; simp at h1; subst h1; simp [rebaseMask_nil]
  · intro I X h ih U s h1 h2
    cases U with
    | nil => simp at h1
    | cons u U =>
      have := zeros_le_length I
      simp at h1 h2
      simp [rebaseMask_zero_zero, ih U s h1 (by omega)]
  · intro I x X hx h hs ih U s h1 h2
    cases U with
    | nil => simp at h1
    | cons u U =>
      simp at h1
      simp [rebaseMask_right' _ _ hx hs, keep_cons_ne hx, ih U s h1 h2]
  · intro i I X hi h hs ih U s h1 h2
    have := zeros_le_length I
    rw [zeros_cons_ne hi] at h2
    cases s with
    | nil => simp at h2; omega
    | cons y s =>
      simp at h2
      simp [rebaseMask_left' _ _ hi hs, weave_left hi, expandMask_left hi, ih U s h1 (by omega)]

/-- Transforming back takes the additions out again. -/
theorem keep_rebase : ∀ I X, zeros I = zeros X →
    keep (expandMask (rebaseMask after I X) X) (rebaseMask after I X) = I := by
  refine rebase_induction (after := after) ?_ ?_ ?_ ?_
  · simp [rebaseMask_nil]
  · intro I X h ih; simp [rebaseMask_zero_zero, ih]
  · intro I x X hx h hs ih; simp [rebaseMask_right' _ _ hx hs, keep_cons_ne hx, ih]
  · intro i I X hi h hs ih; simp [rebaseMask_left' _ _ hi hs, expandMask_left hi, ih]

theorem expandMask_eq_weave (o cs : List Nat) (h : cs.length = zeros o) (k : Nat) (hk : k = o.length - zeros o) :
    expandMask o cs = weave o cs (List.replicate k 0) := by
  induction o generalizing cs k with
  | nil => simp
  | cons i o ih =>
    have := zeros_le_length o
    by_cases hi : i = 0
    · subst hi
      cases cs with
      | nil => simp at h
      | cons c cs => simp at h hk; simp [ih cs h k (by omega)]
    · rw [zeros_cons_ne hi] at h hk
      obtain ⟨k', rfl⟩ : ∃ k', k = k' + 1 := ⟨k - 1, by simp at hk; omega⟩
      rw [expandMask_left hi, List.replicate_succ, weave_left hi, ih cs h k' (by simp at hk; omega)]

/-- The same for deletion masks. -/
theorem keep_rebase_expand (I X c : List Nat) (h : zeros I = zeros X) (hc : c.length = zeros X) :
    keep (expandMask (rebaseMask after I X) X) (expandMask (rebaseMask after I X) (expandMask X c)) =
      expandMask I c := by
  have h1 := rebaseMask_zeros_eq (after := after) I X h
  have h2 := rebaseMask_length (after := after) I X h
  have e1 := expandMask_eq_weave (rebaseMask after I X) (expandMask X c) (by simp [h1])
    (I.length - zeros I) (by omega)
  have e2 := expandMask_eq_weave I c (by omega) (I.length - zeros I) rfl
  rw [e1, e2, keep_rebase_weave (after := after) I X h _ _ (by simp) (by simp), keep_expandMask X c hc]

/-- Insertions of both sides commute: inserting `I` then `X` gives the same text
as inserting `X` then `I`, when the tie-breaks are opposite. -/
theorem rebase_diamond : ∀ I X, zeros I = zeros X → ∀ (b s t : List α), b.length = zeros I →
    s.length = I.length - zeros I → t.length = X.length - zeros X →
    weave (rebaseMask after I X) (weave X b t) s = weave (rebaseMask (!after) X I) (weave I b s) t := by
  refine rebase_induction (after := after) ?_ ?_ ?_ ?_
  · intro b s t h1 h2 h3; simp [rebaseMask_nil]
  · intro I X h ih b s t h1 h2 h3
    have := zeros_le_length I
    have := zeros_le_length X
    cases b with
    | nil => simp at h1
    | cons c b =>
      simp at h1 h2 h3
      simp [rebaseMask_zero_zero, ih b s t h1 (by omega) (by omega)]
  · intro I x X hx h hs ih b s t h1 h2 h3
    have := zeros_le_length X
    rw [zeros_cons_ne hx] at h3
    cases t with
    | nil => simp at h3; omega
    | cons c t =>
      simp at h3
      have hs' : (!after) = true → ∀ i ∈ I.head?, i = 0 := by
        intro ha; rcases hs with hs | hs
        · simp [hs] at ha
        · exact hs
      simp [rebaseMask_right' _ _ hx hs, rebaseMask_left' _ _ hx hs', weave_left hx,
        ih b s t h1 h2 (by omega)]
  · intro i I X hi h hs ih b s t h1 h2 h3
    have := zeros_le_length I
    rw [zeros_cons_ne hi] at h1 h2
    cases s with
    | nil => simp at h2; omega
    | cons c s =>
      simp at h2
      have hs' : (!after) = true ∨ ∀ x ∈ X.head?, x = 0 := by
        cases after <;> simp_all
      simp [rebaseMask_left' _ _ hi hs, rebaseMask_right' _ _ hi hs', weave_left hi,
        ih b s t h1 (by omega) h3]

/-- The two combined masks describe the same combined text: what one marks as
its own and the other's additions, seen from either side. -/
theorem rebase_diamond_mask (I X : List Nat) (h : zeros I = zeros X) :
    expandMask (rebaseMask after I X) X =
      weave (rebaseMask (!after) X I) (List.replicate I.length 0) (keep (flipMask X) X) := by
  have gen : ∀ I X, zeros I = zeros X → expandMask (rebaseMask after I X) X =
      weave (rebaseMask (!after) X I) (List.replicate I.length 0) (keep (flipMask X) X) := by
    refine rebase_induction (after := after) ?_ ?_ ?_ ?_
    · simp [rebaseMask_nil]
    · intro I X h ih; simp [rebaseMask_zero_zero, ih, List.replicate_succ]
    · intro I x X hx h hs ih
      have hs' : (!after) = true → ∀ i ∈ I.head?, i = 0 := by
        intro ha; rcases hs with hs | hs
        · simp [hs] at ha
        · exact hs
      obtain ⟨k, rfl⟩ := Nat.exists_eq_succ_of_ne_zero hx
      simp [rebaseMask_right' _ _ hx hs, rebaseMask_left' _ _ hx hs', ih]
    · intro i I X hi h hs ih
      have hs' : (!after) = true ∨ ∀ x ∈ X.head?, x = 0 := by
        cases after <;> simp_all
      simp [rebaseMask_left' _ _ hi hs, rebaseMask_right' _ _ hi hs', expandMask_left hi, ih,
        List.replicate_succ]
  exact gen I X h

theorem keep_expand_weave : ∀ (I X : List Nat) (U s : List α), X.length = zeros I → U.length = X.length →
    s.length = I.length - zeros I →
    keep (expandMask I X) (weave I U s) = weave (keep (expandMask I X) I) (keep X U) s := by
  intro I
  induction I with
  | nil => intros; simp
  | cons i I ih =>
    intro X U s h1 h2 h3
    have := zeros_le_length I
    by_cases hi : i = 0
    · subst hi
      cases X with
      | nil => simp at h1
      | cons x X => cases U with
        | nil => simp at h2
        | cons u U =>
          simp at h1 h2 h3
          have := ih X U s h1 h2 (by omega)
          cases x <;> simp [this]
    · rw [zeros_cons_ne hi] at h1 h3
      cases s with
      | nil => simp at h3; omega
      | cons y s =>
        simp at h3
        rw [expandMask_left hi, weave_left hi]
        simp only [keep_zero]
        rw [weave_left hi, ih X U s h1 h2 (by omega)]

end Xi
