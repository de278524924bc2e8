import Verif.Trace.FixedLifoDeque

/-!
# The bounded buffer of trace samples: property C41
-/

namespace Xi

variable {α : Type}

/-- The last `n` elements of a list. -/
def newest (n : Nat) (l : List α) : List α := l.drop (l.length - n)

theorem newest_suffix (n : Nat) (l : List α) : newest n l <:+ l ∧ (newest n l).length = min n l.length := by
  refine ⟨List.drop_suffix _ _, ?_⟩
  simp [newest]; omega

theorem newest_self {n : Nat} {l : List α} (h : l.length ≤ n) : newest n l = l := by
  simp [newest, show l.length - n = 0 by omega]

/-- Taking the newest again after more have come gives the newest of all. -/
theorem newest_append (n : Nat) (l r : List α) : newest n (newest n l ++ r) = newest n (l ++ r) := by
  simp only [newest, List.length_append, List.length_drop, List.drop_append, List.drop_drop]
  congr 1
  · congr 1; omega
  · congr 1; omega

/-- An operation on the buffer. -/
inductive DequeOp (α : Type) where
  | pushBack (x : α)
  | append (l : List α)
  | resetLimit (n : Nat)
  | resize (n : Nat) (x : α)
  | popFront
  | popBack
  | remove (i : Nat)
  | retain (f : α → Bool)
  | clear

/-- The model does the operation. -/
def FixedLifoDeque.step (d : FixedLifoDeque α) : DequeOp α → Option (FixedLifoDeque α)
  | .pushBack x => some (d.pushBack x)
  | .append l => some (d.append l)
  | .resetLimit n => d.resetLimit n
  | .resize n x => some (d.resize n x)
  | .popFront => some d.popFront.1
  | .popBack => some d.popBack.1
  | .remove i => some (d.remove i).1
  | .retain f => some (d.retain f)
  | .clear => some d.clear

/-- What the operation is meant to do to the limit and the contents: whatever is added
comes last, and of the whole the newest are kept. -/
def DequeOp.meaning : DequeOp α → Nat × List α → Nat × List α
  | .pushBack x, (n, l) => (n, newest n (l ++ [x]))
  | .append r, (n, l) => (n, newest n (l ++ r))
  | .resetLimit n, (_, l) => (n, newest n l)
  | .resize m x, (n, l) => (n, if m ≤ l.length then newest m l else l ++ List.replicate (min n m - l.length) x)
  | .popFront, (n, l) => (n, l.drop 1)
  | .popBack, (n, l) => (n, l.take (l.length - 1))
  | .remove i, (n, l) => (n, l.take i ++ l.drop (i + 1))
  | .retain f, (n, l) => (n, l.filter f)
  | .clear, (n, _) => (n, [])

theorem dropExcess_spec (d : FixedLifoDeque α) (n : Nat) :
    d.dropExcessForInserting n = ⟨newest (d.limit - n) d.storage, d.limit⟩ := by
  unfold FixedLifoDeque.dropExcessForInserting newest
  split
  · simp only
    congr 2
    omega
  · rw [show d.storage.length - (d.limit - n) = 0 by omega, List.drop_zero]

theorem newest_newest (m n : Nat) (l : List α) : newest m (newest n l) = newest (min m n) l := by
  simp only [newest, List.length_drop, List.drop_drop]
  congr 1; omega

/-- After making room, adding keeps the newest. -/
theorem newest_room {n : Nat} {l r : List α} : newest n (newest (n - r.length) l ++ r) = newest n (l ++ r) := by
  simp only [newest, List.length_append, List.length_drop, List.drop_append, List.drop_drop]
  congr 1
  · congr 1; omega
  · congr 1; omega

/-- **C41.** No operation panics or leaves more elements than the limit, and every
operation does what it is meant to do. -/
theorem C41_step (d : FixedLifoDeque α) (hd : d.storage.length ≤ d.limit) (op : DequeOp α) :
    ∃ d', d.step op = some d' ∧ (d'.limit, d'.storage) = op.meaning (d.limit, d.storage) ∧ d'.storage.length ≤ d'.limit := by
  cases op with
  | pushBack x =>
    refine ⟨_, rfl, ?_, ?_⟩
    · simp only [FixedLifoDeque.pushBack, dropExcess_spec, DequeOp.meaning, Nat.sub_zero]
      rw [show d.limit - 1 = d.limit - [x].length from rfl, newest_room]
    · simp only [FixedLifoDeque.pushBack, dropExcess_spec, Nat.sub_zero, (newest_suffix _ _).2]; omega
  | append l =>
    refine ⟨_, rfl, ?_, ?_⟩
    · simp only [FixedLifoDeque.append, dropExcess_spec, DequeOp.meaning, Nat.sub_zero]
      rw [newest_room]
    · simp only [FixedLifoDeque.append, dropExcess_spec, Nat.sub_zero, (newest_suffix _ _).2]; omega
  | resetLimit n =>
    have key : d.resetLimit n = some ⟨newest n d.storage, n⟩ := by
      unfold FixedLifoDeque.resetLimit
      by_cases h : n < d.limit
      · simp only [h, if_true, dropExcess_spec, show d.limit - (d.limit - n) = n by omega]
        rw [if_pos (by rw [(newest_suffix _ _).2]; omega)]
      · simp only [h, if_false]
        rw [if_pos (by omega), newest_self (by omega)]
    exact ⟨_, key, rfl, by simp only [(newest_suffix _ _).2]; omega⟩
  | resize m x =>
    refine ⟨_, rfl, ?_, ?_⟩
    · simp only [FixedLifoDeque.resize, DequeOp.meaning]
      by_cases h : m < d.storage.length
      · simp only [h, if_true, Nat.le_of_lt h]
        rfl
      · simp only [h, if_false, List.take_of_length_le (show d.storage.length ≤ min d.limit m by omega)]
        by_cases h2 : m ≤ d.storage.length
        · rw [if_pos h2, newest_self (by omega), show min d.limit m - d.storage.length = 0 by omega]
          simp
        · rw [if_neg h2]
    · simp only [FixedLifoDeque.resize]
      split
      · simp; omega
      · simp; omega
  | popFront => exact ⟨_, rfl, by simp [FixedLifoDeque.popFront, DequeOp.meaning], by simp [FixedLifoDeque.popFront]; omega⟩
  | popBack => exact ⟨_, rfl, by simp [FixedLifoDeque.popBack, DequeOp.meaning, List.dropLast_eq_take], by simp [FixedLifoDeque.popBack]; omega⟩
  | remove i =>
    refine ⟨_, rfl, by simp [FixedLifoDeque.remove, DequeOp.meaning, List.eraseIdx_eq_take_drop_succ], ?_⟩
    have := List.length_eraseIdx_le d.storage i
    simp only [FixedLifoDeque.remove]; omega
  | retain f =>
    refine ⟨_, rfl, by simp [FixedLifoDeque.retain, DequeOp.meaning], ?_⟩
    have := List.length_filter_le f d.storage
    simp only [FixedLifoDeque.retain]; omega
  | clear => exact ⟨_, rfl, by simp [FixedLifoDeque.clear, DequeOp.meaning], by simp [FixedLifoDeque.clear]⟩

/-- **C41.** The same for any sequence of operations on a new buffer. -/
theorem C41_history (n : Nat) (ops : List (DequeOp α)) :
    ∃ d, ops.foldlM FixedLifoDeque.step (FixedLifoDeque.withLimit n) = some d ∧
      (d.limit, d.storage) = ops.foldl (fun s op => op.meaning s) (n, []) ∧ d.storage.length ≤ d.limit := by
  have key : ∀ (ops : List (DequeOp α)) (d : FixedLifoDeque α), d.storage.length ≤ d.limit →
      ∃ d', ops.foldlM FixedLifoDeque.step d = some d' ∧
        (d'.limit, d'.storage) = ops.foldl (fun s op => op.meaning s) (d.limit, d.storage) ∧ d'.storage.length ≤ d'.limit := by
    intro ops
    induction ops with
    | nil => intro d hd; exact ⟨d, rfl, rfl, hd⟩
    | cons op ops ih =>
      intro d hd
      obtain ⟨d1, e1, h1, h2⟩ := C41_step d hd op
      obtain ⟨d2, e2, h3, h4⟩ := ih d1 h2
      exact ⟨d2, by simp [List.foldlM_cons, e1, e2], by rw [h3, h1]; rfl, h4⟩
  exact key ops (FixedLifoDeque.withLimit n) (by simp [FixedLifoDeque.withLimit])

/-- **C41.** After any number of insertions, one by one or many at once, the buffer
holds exactly the newest of all that were inserted, in order. -/
theorem C41_insertions (n : Nat) (ins : List (List α)) :
    ((ins.foldl FixedLifoDeque.append (FixedLifoDeque.withLimit n)).storage = newest n ins.flatten) ∧
    ∀ l : List α, ((l.foldl FixedLifoDeque.pushBack (FixedLifoDeque.withLimit n)).storage = newest n l) := by
  have happ : ∀ (d : FixedLifoDeque α) (l : List α), d.append l = ⟨newest d.limit (d.storage ++ l), d.limit⟩ := by
    intro d l
    simp only [FixedLifoDeque.append, dropExcess_spec, Nat.sub_zero, newest_room]
  have hpush : ∀ (d : FixedLifoDeque α) (x : α), d.pushBack x = d.append [x] := fun d x => rfl
  have key : ∀ (ins : List (List α)) (before : List α),
      ins.foldl FixedLifoDeque.append ⟨newest n before, n⟩ = ⟨newest n (before ++ ins.flatten), n⟩ := by
    intro ins
    induction ins with
    | nil => intro before; simp
    | cons l ins ih =>
      intro before
      rw [List.foldl_cons, happ]
      simp only [newest_append]
      rw [ih, List.flatten_cons, List.append_assoc]
  refine ⟨by have := key ins []; simp only [newest, List.drop_nil, List.nil_append] at this; rw [FixedLifoDeque.withLimit, this]; rfl, ?_⟩
  intro l
  have h2 : l.foldl FixedLifoDeque.pushBack (FixedLifoDeque.withLimit n) =
      (l.map (fun x => [x])).foldl FixedLifoDeque.append (FixedLifoDeque.withLimit n) := by
    rw [List.foldl_map]
    rfl
  have := key (l.map (fun x => [x])) []
  rw [h2, FixedLifoDeque.withLimit]
  simp only [newest, List.drop_nil, List.nil_append] at this
  rw [this]
  have hf : ∀ l : List α, (l.map (fun x => [x])).flatten = l := by
    intro l
    induction l with
    | nil => rfl
    | cons x l ih => simp [ih]
  rw [hf]; rfl

/-- Samples are dropped, the limit goes down and up again. -/
example : ([.append [1, 2, 3, 4, 5], .pushBack 6, .resetLimit 2, .resetLimit 3, .pushBack 7, .resize 9 0] : List (DequeOp Nat)).foldlM
    FixedLifoDeque.step (FixedLifoDeque.withLimit 4) = some ⟨[5, 6, 7], 3⟩ := by rfl

end Xi
