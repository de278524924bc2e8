import Verif.Spec.Mask

/-! # Lemmas about masks -/

namespace Xi

variable {α β : Type}

@[simp] theorem keep_nil_left (xs : List α) : keep [] xs = [] := by cases xs <;> rfl
@[simp] theorem keep_nil_right (cs : List Nat) : keep cs ([] : List α) = [] := by
  rcases cs with _ | ⟨_ | _, _⟩ <;> rfl
@[simp] theorem keep_zero (cs : List Nat) (x : α) (xs) : keep (0 :: cs) (x :: xs) = x :: keep cs xs := rfl
@[simp] theorem keep_succ (n) (cs : List Nat) (x : α) (xs) :
    keep ((n+1) :: cs) (x :: xs) = keep cs xs := rfl

theorem keep_cons_ne {c : Nat} (h : c ≠ 0) (cs : List Nat) (x : α) (xs) :
    keep (c :: cs) (x :: xs) = keep cs xs := by
  cases c with
  | zero => exact absurd rfl h
  | succ n => rfl

@[simp] theorem zeros_nil : zeros [] = 0 := rfl
@[simp] theorem zeros_zero (cs) : zeros (0 :: cs) = zeros cs + 1 := by simp [zeros]
@[simp] theorem zeros_succ (n cs) : zeros ((n+1) :: cs) = zeros cs := by simp [zeros]
theorem zeros_cons_ne {c : Nat} (h : c ≠ 0) (cs) : zeros (c :: cs) = zeros cs := by
  cases c with
  | zero => exact absurd rfl h
  | succ n => simp
@[simp] theorem zeros_append (a b) : zeros (a ++ b) = zeros a + zeros b := by simp [zeros]
@[simp] theorem zeros_replicate_zero (n) : zeros (List.replicate n 0) = n := by simp [zeros, List.countP_replicate]
theorem zeros_replicate_ne {c} (h : c ≠ 0) (n) : zeros (List.replicate n c) = 0 := by
  simp [zeros, List.countP_replicate, h]
theorem zeros_le_length (cs) : zeros cs ≤ cs.length := List.countP_le_length

@[simp] theorem flipMask_nil : flipMask [] = [] := rfl
@[simp] theorem flipMask_zero (cs) : flipMask (0 :: cs) = 1 :: flipMask cs := rfl
@[simp] theorem flipMask_succ (n cs) : flipMask ((n+1) :: cs) = 0 :: flipMask cs := rfl
@[simp] theorem flipMask_length (cs) : (flipMask cs).length = cs.length := by simp [flipMask]
@[simp] theorem flipMask_append (a b) : flipMask (a ++ b) = flipMask a ++ flipMask b := by simp [flipMask]

@[simp] theorem expandMask_nil (cs) : expandMask [] cs = [] := rfl
@[simp] theorem expandMask_zero_cons (o c cs) : expandMask (0 :: o) (c :: cs) = c :: expandMask o cs := rfl
@[simp] theorem expandMask_zero_nil (o) : expandMask (0 :: o) [] = 0 :: expandMask o [] := rfl
@[simp] theorem expandMask_succ (n o cs) : expandMask ((n+1) :: o) cs = 0 :: expandMask o cs := by
  cases cs <;> rfl

@[simp] theorem weave_nil (xs ys : List α) : weave [] xs ys = [] := rfl
@[simp] theorem weave_zero_cons (o) (x : α) (xs ys) : weave (0 :: o) (x :: xs) ys = x :: weave o xs ys := rfl
@[simp] theorem weave_zero_nil (o) (ys : List α) : weave (0 :: o) [] ys = [] := rfl
@[simp] theorem weave_succ_cons (n o) (xs : List α) (y ys) :
    weave ((n+1) :: o) xs (y :: ys) = y :: weave o xs ys := by cases xs <;> rfl
@[simp] theorem weave_succ_nil (n o) (xs : List α) : weave ((n+1) :: o) xs [] = [] := by cases xs <;> rfl

/-- Induction principle: a mask and a list of the same length. -/
theorem mask_induction {motive : List Nat → List α → Prop}
    (nil : motive [] [])
    (zero : ∀ cs x xs, cs.length = xs.length → motive cs xs → motive (0 :: cs) (x :: xs))
    (succ : ∀ n cs x xs, cs.length = xs.length → motive cs xs → motive ((n+1) :: cs) (x :: xs)) :
    ∀ cs xs, cs.length = xs.length → motive cs xs := by
  intro cs
  induction cs with
  | nil => intro xs h; cases xs with
    | nil => exact nil
    | cons _ _ => simp at h
  | cons c cs ih => intro xs h; cases xs with
    | nil => simp at h
    | cons x xs =>
      have h' : cs.length = xs.length := by simpa using h
      cases c with
      | zero => exact zero _ _ _ h' (ih _ h')
      | succ n => exact succ _ _ _ _ h' (ih _ h')

theorem keep_length : ∀ (cs : List Nat) (xs : List α), cs.length = xs.length →
    (keep cs xs).length = zeros cs := by
  apply mask_induction <;> simp_all

theorem keep_append (a b : List Nat) (xs ys : List α) (h : a.length = xs.length) :
    keep (a ++ b) (xs ++ ys) = keep a xs ++ keep b ys := by
  revert h; revert a xs
  apply mask_induction <;> simp_all

@[simp] theorem keep_replicate_zero (xs : List α) : keep (List.replicate xs.length 0) xs = xs := by
  induction xs with
  | nil => rfl
  | cons x xs ih => simp [List.replicate_succ, ih]

theorem keep_zeros_of_length (n : Nat) (xs : List α) (h : n = xs.length) :
    keep (List.replicate n 0) xs = xs := by subst h; simp

theorem keep_replicate_ne {c} (h : c ≠ 0) (n) (xs : List α) : keep (List.replicate n c) xs = [] := by
  induction n generalizing xs with
  | zero => simp
  | succ n ih => cases xs with
    | nil => simp
    | cons x xs => rw [List.replicate_succ, keep_cons_ne h, ih]

theorem keep_flip_length : ∀ (cs : List Nat) (xs : List α), cs.length = xs.length →
    (keep (flipMask cs) xs).length = cs.length - zeros cs := by
  apply mask_induction
  · simp
  · intro cs x xs h ih; simp [ih]
  · intro n cs x xs h ih; have := zeros_le_length cs; simp [ih]; omega

theorem zeros_flip (cs) : zeros (flipMask cs) = cs.length - zeros cs := by
  rw [← keep_length (flipMask cs) cs (by simp), keep_flip_length _ _ rfl]

@[simp] theorem expandMask_length (o cs) : (expandMask o cs).length = o.length := by
  induction o generalizing cs with
  | nil => simp
  | cons n o ih => cases n <;> cases cs <;> simp [ih]

theorem keep_expandMask (o cs) (h : cs.length = zeros o) : keep o (expandMask o cs) = cs := by
  induction o generalizing cs with
  | nil => simp_all
  | cons n o ih => cases n with
    | zero => cases cs with
      | nil => simp at h
      | cons c cs => simp at h; simp [ih _ h]
    | succ n => simp at h; simp [ih _ h]

theorem map_keep (f : α → β) (cs : List Nat) (xs : List α) : (keep cs xs).map f = keep cs (xs.map f) := by
  induction cs generalizing xs with
  | nil => simp
  | cons c cs ih => cases xs with
    | nil => simp
    | cons x xs => cases c <;> simp [ih]

theorem weave_length (o) (xs ys : List α) (h1 : xs.length = zeros o) (h2 : ys.length = o.length - zeros o) :
    (weave o xs ys).length = o.length := by
  induction o generalizing xs ys with
  | nil => simp
  | cons n o ih => 
    have := zeros_le_length o
    cases n with
    | zero => cases xs with
      | nil => simp at h1
      | cons x xs => simp at h1 h2; simp [ih _ _ h1 h2]
    | succ n => cases ys with
      | nil => simp at h1 h2; omega
      | cons y ys => simp at h1 h2; simp [ih xs ys h1 (by omega)]

theorem weave_keep : ∀ (o : List Nat) (u : List α), o.length = u.length →
    weave o (keep o u) (keep (flipMask o) u) = u := by
  apply mask_induction <;> simp_all

theorem keep_weave (o) (xs ys : List α) (h1 : xs.length = zeros o) (h2 : ys.length = o.length - zeros o) :
    keep o (weave o xs ys) = xs := by
  induction o generalizing xs ys with
  | nil => simp_all
  | cons n o ih => 
    have := zeros_le_length o
    cases n with
    | zero => cases xs with
      | nil => simp at h1
      | cons x xs => simp at h1 h2; simp [ih _ _ h1 h2]
    | succ n => cases ys with
      | nil => simp at h1 h2; omega
      | cons y ys => simp at h1 h2; simp [ih xs ys h1 (by omega)]

theorem keep_flip_weave (o) (xs ys : List α) (h1 : xs.length = zeros o) (h2 : ys.length = o.length - zeros o) :
    keep (flipMask o) (weave o xs ys) = ys := by
  induction o generalizing xs ys with
  | nil => simp_all
  | cons n o ih => 
    have := zeros_le_length o
    cases n with
    | zero => cases xs with
      | nil => simp at h1
      | cons x xs => simp at h1 h2; simp [ih _ _ h1 h2]
    | succ n => cases ys with
      | nil => simp at h1 h2; omega
      | cons y ys => simp at h1 h2; simp [ih xs ys h1 (by omega)]

end Xi

namespace Xi

variable {α β : Type}

theorem expandMask_append (a b cs ds : List Nat) (h : cs.length = zeros a) :
    expandMask (a ++ b) (cs ++ ds) = expandMask a cs ++ expandMask b ds := by
  induction a generalizing cs with
  | nil => simp at h; subst h; simp
  | cons n a ih => cases n with
    | zero => cases cs with
      | nil => simp at h
      | cons c cs => simp at h; simp [ih _ h]
    | succ n => simp at h; simp [ih _ h]

theorem weave_append (a b : List Nat) (xs xs' ys ys' : List α) (h1 : xs.length = zeros a)
    (h2 : ys.length = a.length - zeros a) :
    weave (a ++ b) (xs ++ xs') (ys ++ ys') = weave a xs ys ++ weave b xs' ys' := by
  induction a generalizing xs ys with
  | nil => simp at h1 h2; subst h1 h2; simp
  | cons n a ih =>
    have := zeros_le_length a
    cases n with
    | zero => cases xs with
      | nil => simp at h1
      | cons x xs => simp at h1 h2; simp [ih _ _ h1 h2]
    | succ n => cases ys with
      | nil => simp at h1 h2; omega
      | cons y ys => simp at h1 h2; simp [ih xs ys h1 (by omega)]

@[simp] theorem expandMask_zeros (n : Nat) (cs : List Nat) (h : cs.length = n) :
    expandMask (List.replicate n 0) cs = cs := by
  induction cs generalizing n with
  | nil => simp at h; subst h; simp
  | cons c cs ih => simp at h; subst h; simp [List.replicate_succ, ih]

@[simp] theorem expandMask_replicate_one (n : Nat) (cs : List Nat) :
    expandMask (List.replicate n 1) cs = List.replicate n 0 := by
  induction n with
  | zero => simp
  | succ n ih => simp [List.replicate_succ, ih]

@[simp] theorem weave_zeros (n : Nat) (xs ys : List α) (h : xs.length = n) :
    weave (List.replicate n 0) xs ys = xs := by
  induction xs generalizing n with
  | nil => simp at h; subst h; simp
  | cons c cs ih => simp at h; subst h; simp [List.replicate_succ, ih]

@[simp] theorem weave_ones (n : Nat) (xs ys : List α) (h : ys.length = n) :
    weave (List.replicate n 1) xs ys = ys := by
  induction ys generalizing n with
  | nil => simp at h; subst h; simp
  | cons c cs ih => simp at h; subst h; simp [List.replicate_succ, ih]

/-- Deleting two masks at once is deleting one after the other. -/
theorem keep_add : ∀ (a : List Nat) (u : List α), a.length = u.length → ∀ b, b.length = a.length →
    keep (List.zipWith (fun x y => x + y) a b) u = keep (keep a b) (keep a u) := by
  apply mask_induction
  · intro b hb; simp
  · intro a x u h ih b hb
    cases b with
    | nil => simp at hb
    | cons c b =>
      have := ih b (by simpa using hb)
      cases c <;> simp [this]
  · intro n a x u h ih b hb
    cases b with
    | nil => simp at hb
    | cons c b =>
      have := ih b (by simpa using hb)
      have e : n + 1 + c = (n + c) + 1 := by omega
      simp [e, this]

/-- Slicing the kept part corresponds to keeping a slice. -/
theorem keep_slice (cs : List Nat) (u : List α) (h : cs.length = u.length) (a b : Nat) (hab : a ≤ b) :
    ((keep cs u).take (zeros (cs.take b))).drop (zeros (cs.take a)) =
      keep ((cs.take b).drop a) ((u.take b).drop a) := by
  have e1 : ∀ k, keep cs u = keep (cs.take k) (u.take k) ++ keep (cs.drop k) (u.drop k) := by
    intro k
    rw [← keep_append _ _ _ _ (by simp [h]), List.take_append_drop, List.take_append_drop]
  have l1 : ∀ k, (keep (cs.take k) (u.take k)).length = zeros (cs.take k) := by
    intro k; exact keep_length _ _ (by simp [h])
  rw [e1 b, List.take_left' (l1 b)]
  have e2 : keep (cs.take b) (u.take b) =
      keep (cs.take a) (u.take a) ++ keep ((cs.take b).drop a) ((u.take b).drop a) := by
    have : cs.take a = (cs.take b).take a := by rw [List.take_take, Nat.min_eq_left hab]
    have h2 : u.take a = (u.take b).take a := by rw [List.take_take, Nat.min_eq_left hab]
    rw [this, h2, ← keep_append _ _ _ _ (by simp [h]), List.take_append_drop, List.take_append_drop]
  rw [e2, List.drop_left' (l1 a)]

end Xi
