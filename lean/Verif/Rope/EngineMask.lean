import Verif.Rope.MultisetReach
import Verif.Rope.ExpandLemmas
import Verif.Rope.SynthLemmas
import Verif.Rope.Engine

/-!
# Masks that come from a labelled list
-/

namespace Xi

variable {α β γ : Type}

theorem keep_map (l : List β) (f : β → Nat) (h : β → γ) :
    keep (l.map f) (l.map h) = (l.filter (fun c => f c == 0)).map h := by
  induction l with
  | nil => simp
  | cons c l ih =>
    by_cases hc : f c = 0
    · simp [hc, ih]
    · rw [List.map_cons, List.map_cons, keep_cons_ne hc, ih]; simp [hc]

theorem keep_map_self (l : List β) (f : β → Nat) :
    keep (l.map f) l = l.filter (fun c => f c == 0) := by
  simpa using keep_map l f id

theorem zeros_map (l : List β) (f : β → Nat) :
    zeros (l.map f) = (l.filter (fun c => f c == 0)).length := by
  rw [zeros, List.countP_map, List.countP_eq_length_filter]; rfl

theorem expandMask_map (l : List β) (f h : β → Nat) :
    expandMask (l.map f) ((l.filter (fun c => f c == 0)).map h) =
      l.map (fun c => if f c = 0 then h c else 0) := by
  induction l with
  | nil => simp
  | cons c l ih =>
    by_cases hc : f c = 0
    · simp [hc, ih]
    · simp [hc, expandMask_left, ih]

theorem unionMask_left {i : Nat} (hi : i ≠ 0) (I xs : List Nat) :
    unionMask (i :: I) xs = i :: unionMask I xs := by
  obtain ⟨k, rfl⟩ := Nat.exists_eq_succ_of_ne_zero hi
  simp

theorem unionMask_map (l : List β) (f h : β → Nat) :
    unionMask (l.map f) ((l.filter (fun c => f c == 0)).map h) =
      l.map (fun c => if f c = 0 then h c else f c) := by
  induction l with
  | nil => simp
  | cons c l ih =>
    by_cases hc : f c = 0
    · simp [hc, ih]
    · simp [hc, unionMask_left, ih]

@[simp] theorem unionMask_length (o cs : List Nat) : (unionMask o cs).length = o.length := by
  induction o generalizing cs with
  | nil => simp
  | cons n o ih => cases n <;> cases cs <;> simp [ih]

theorem weave_map (l : List β) (f : β → Nat) (h : β → γ) :
    weave (l.map f) ((l.filter (fun c => f c == 0)).map h) ((l.filter (fun c => f c != 0)).map h) =
      l.map h := by
  induction l with
  | nil => simp
  | cons c l ih =>
    by_cases hc : f c = 0
    · simp [hc, ih]
    · simp [hc, weave_left, ih]

theorem flipMask_map (l : List β) (f : β → Nat) :
    flipMask (l.map f) = l.map (fun c => if f c = 0 then 1 else 0) := by
  simp [flipMask]

theorem zipWith_map_map (op : Nat → Nat → Nat) (l : List β) (f g : β → Nat) :
    List.zipWith op (l.map f) (l.map g) = l.map (fun c => op (f c) (g c)) := by
  induction l with
  | nil => simp
  | cons c l ih => simp [ih]

theorem map_weave (f : β → γ) (o : List Nat) (xs ys : List β) :
    (weave o xs ys).map f = weave o (xs.map f) (ys.map f) := by
  induction o generalizing xs ys with
  | nil => simp
  | cons i o ih =>
    cases i with
    | zero => cases xs <;> simp [ih]
    | succ i => cases ys <;> simp [ih]

/-- `union`, as used by `transform_union`: the mask, plus what is spread over
its unmarked positions. -/
theorem unionMask_eq_add (K B : List Nat) (h : B.length = zeros K) :
    unionMask K B = List.zipWith (fun x y => x + y) K (expandMask K B) := by
  induction K generalizing B with
  | nil => simp
  | cons k K ih =>
    cases k with
    | zero =>
      cases B with
      | nil => simp at h
      | cons b B => simp at h; simp [ih B h]
    | succ k => simp at h; simp [ih B h]

theorem keep_unionMask (K B : List Nat) (xs : List β) (h : B.length = zeros K) (hl : xs.length = K.length) :
    keep (unionMask K B) xs = keep B (keep K xs) := by
  rw [unionMask_eq_add K B h, keep_add K xs hl.symm _ (by simp), keep_expandMask K B h]

theorem keep_unionMask_expand (K B c : List Nat) (h : B.length = zeros K) (hc : c.length = zeros K) :
    keep (unionMask K B) (expandMask K c) = keep B c := by
  rw [keep_unionMask K B _ h (by simp), keep_expandMask K c hc]

theorem zeros_unionMask (K B : List Nat) (h : B.length = zeros K) : zeros (unionMask K B) = zeros B := by
  induction K generalizing B with
  | nil => simp at h; subst h; simp
  | cons k K ih =>
    cases k with
    | zero =>
      cases B with
      | nil => simp at h
      | cons b B => simp at h; cases b <;> simp [ih B h]
    | succ k => simp at h; simp [ih B h]

theorem expandMask_unionMask (K B c : List Nat) (h : B.length = zeros K) (hc : c.length = zeros B) :
    expandMask (unionMask K B) c = expandMask K (expandMask B c) := by
  induction K generalizing B c with
  | nil => simp
  | cons k K ih =>
    cases k with
    | zero =>
      cases B with
      | nil => simp at h
      | cons b B =>
        simp at h
        cases b with
        | zero =>
          cases c with
          | nil => simp at hc
          | cons x c => simp at hc; simp [ih B c h hc]
        | succ b => simp at hc; simp [ih B c h hc]
    | succ k => simp at h; simp [ih B c h hc]

/-! ### Pointwise comparison -/

/-- Pointwise `≤` of lists of the same length. -/
def ListLe (a b : List Nat) : Prop := a.length = b.length ∧ ∀ p ∈ a.zip b, p.1 ≤ p.2

theorem ListLe.refl (a : List Nat) : ListLe a a := by
  refine ⟨rfl, ?_⟩
  induction a with
  | nil => simp
  | cons x a ih => simp; intro a b h; exact ih _ h

theorem ListLe.cons {x y : Nat} {a b : List Nat} : ListLe (x :: a) (y :: b) ↔ x ≤ y ∧ ListLe a b := by
  simp only [ListLe, List.length_cons, List.zip_cons_cons, List.mem_cons, forall_eq_or_imp]
  constructor
  · rintro ⟨h1, h2, h3⟩; exact ⟨h2, by omega, h3⟩
  · rintro ⟨h1, h2, h3⟩; exact ⟨by omega, h1, h3⟩

theorem ListLe.keep (m : List Nat) {a b : List Nat} (h : ListLe a b) : ListLe (keep m a) (keep m b) := by
  induction m generalizing a b with
  | nil => simp [ListLe]
  | cons x m ih =>
    match a, b, h with
    | [], [], _ => simp [ListLe]
    | [], _ :: _, h => exact absurd h.1 (by simp)
    | _ :: _, [], h => exact absurd h.1 (by simp)
    | p :: a, q :: b, h =>
      rw [ListLe.cons] at h
      cases x with
      | zero => simpa [ListLe.cons, h.1] using ih h.2
      | succ x => simpa using ih h.2

theorem ListLe.sub {a d b : List Nat} (hd : d.length = a.length)
    (h : ListLe (List.zipWith (fun x y => x + y) a d) b) :
    (∀ p ∈ b.zip d, p.2 ≤ p.1) ∧ ListLe a (List.zipWith (· - ·) b d) := by
  induction a generalizing d b with
  | nil => simp at hd; subst hd; cases b <;> simp_all [ListLe]
  | cons x a ih =>
    match d, b, hd, h with
    | [], _, hd, _ => simp at hd
    | y :: d, [], _, h => exact absurd h.1 (by simp)
    | y :: d, z :: b, hd, h =>
      simp only [List.zipWith_cons_cons, ListLe.cons] at h
      obtain ⟨g1, g2⟩ := ih (by simpa using hd) h.2
      refine ⟨?_, ?_⟩
      · intro p hp
        simp only [List.zip_cons_cons, List.mem_cons] at hp
        rcases hp with rfl | hp
        · simp; omega
        · exact g1 p hp
      · simp only [List.zipWith_cons_cons, ListLe.cons]
        exact ⟨by omega, g2⟩

theorem ListLe.trans {a b c : List Nat} (h1 : ListLe a b) (h2 : ListLe b c) : ListLe a c := by
  induction a generalizing b c with
  | nil =>
    have := h1.1; have := h2.1
    refine ⟨by simp_all, by simp⟩
  | cons x a ih =>
    match b, c, h1, h2 with
    | [], _, h, _ => exact absurd h.1 (by simp)
    | _ :: _, [], _, h => exact absurd h.1 (by simp)
    | y :: b, z :: c, h1, h2 =>
      rw [ListLe.cons] at *
      exact ⟨by omega, ih h1.2 h2.2⟩

theorem ListLe.map {l : List β} {f g : β → Nat} (h : ∀ c ∈ l, f c ≤ g c) : ListLe (l.map f) (l.map g) := by
  induction l with
  | nil => simp [ListLe]
  | cons c l ih =>
    simp only [List.map_cons, ListLe.cons]
    exact ⟨h c (by simp), ih (fun c hc => h c (by simp [hc]))⟩

/-! ### Subsets with known counts -/

/-- `s` is normal and denotes the count list `m`. -/
def Subset.Is (s : Subset) (m : List Nat) : Prop := s.Normal ∧ s.counts = m

namespace Subset.Is

variable {a b : Subset} {m k : List Nat}

theorem new (n) : ∃ r, Subset.new n = some r ∧ r.Is (List.replicate n 0) := by
  obtain ⟨r, h1, h2, h3⟩ := Subset.new_spec n; exact ⟨r, h1, h2, h3⟩

theorem len (h : a.Is m) : a.len = m.length := by rw [Subset.len_spec, h.2]

theorem lenAfterDelete (h : a.Is m) : a.lenAfterDelete = zeros m := by
  rw [Subset.lenAfterDelete_spec, h.2]

theorem isEmpty (h : a.Is m) : a.isEmpty = true ↔ ∀ c ∈ m, c = 0 := by
  rw [Subset.isEmpty_spec _ h.1, h.2]

theorem union (ha : a.Is m) (hb : b.Is k) (hl : m.length = k.length) :
    ∃ r, a.union b = some r ∧ r.Is (List.zipWith (fun x y => x + y) m k) := by
  obtain ⟨r, h1, h2, h3⟩ := Subset.union_spec ha.1 hb.1 (by rw [ha.2, hb.2, hl])
  exact ⟨r, h1, h2, by rw [h3, ha.2, hb.2]⟩

theorem bitxor (ha : a.Is m) (hb : b.Is k) (hl : m.length = k.length) :
    ∃ r, a.bitxor b = some r ∧ r.Is (List.zipWith (· ^^^ ·) m k) := by
  obtain ⟨r, h1, h2, h3⟩ := Subset.bitxor_spec ha.1 hb.1 (by rw [ha.2, hb.2, hl])
  exact ⟨r, h1, h2, by rw [h3, ha.2, hb.2]⟩

theorem subtract (ha : a.Is m) (hb : b.Is k) (hl : m.length = k.length)
    (hle : ∀ p ∈ m.zip k, p.2 ≤ p.1) :
    ∃ r, a.subtract b = some r ∧ r.Is (List.zipWith (· - ·) m k) := by
  obtain ⟨r, h1, h2, h3⟩ := Subset.subtract_spec ha.1 hb.1 (by rw [ha.2, hb.2, hl])
    (by rw [ha.2, hb.2]; exact hle)
  exact ⟨r, h1, h2, by rw [h3, ha.2, hb.2]⟩

theorem shrink (ha : a.Is m) (hb : b.Is k) (hl : m.length = k.length) :
    ∃ r, a.transformShrink b = some r ∧ r.Is (keep k m) := by
  obtain ⟨r, h1, h2, h3⟩ := Subset.transformShrink_spec ha.1 hb.1 (by rw [ha.2, hb.2, hl])
  exact ⟨r, h1, h2, by rw [h3, ha.2, hb.2]⟩

theorem expand (ha : a.Is m) (hb : b.Is k) (hl : m.length = zeros k) :
    ∃ r, a.transformExpand b = some r ∧ r.Is (expandMask k m) := by
  obtain ⟨r, h1, h2, h3⟩ := Subset.transformExpand_spec ha.1 hb.1 (by rw [ha.2, hb.2, hl])
  exact ⟨r, h1, h2, by rw [h3, ha.2, hb.2]⟩

theorem transUnion (ha : a.Is m) (hb : b.Is k) (hl : m.length = zeros k) :
    ∃ r, a.transformUnion b = some r ∧ r.Is (unionMask k m) := by
  obtain ⟨r, h1, h2, h3⟩ := Subset.transformUnion_spec ha.1 hb.1 (by rw [ha.2, hb.2, hl])
  exact ⟨r, h1, h2, by rw [h3, ha.2, hb.2]⟩

theorem complement (ha : a.Is m) : ∃ r, a.complement = some r ∧ r.Is (flipMask m) := by
  obtain ⟨r, h1, h2, h3⟩ := Subset.complement_spec ha.1
  exact ⟨r, h1, h2, by rw [h3, ha.2]⟩

theorem deleteFrom (ha : a.Is m) (t : List α) (h : m.length = t.length) :
    a.deleteFrom t = some (keep m t) := by
  rw [Subset.deleteFrom_spec _ _ (by rw [ha.2, h]), ha.2]

theorem zeros_of_isEmpty (h : a.Is m) (he : a.isEmpty = true) : m = List.replicate m.length 0 := by
  rw [h.isEmpty] at he
  exact List.eq_replicate_iff.2 ⟨rfl, he⟩

theorem ext (ha : a.Is m) (hb : b.Is m) : a = b :=
  Subset.ext_counts ha.1 hb.1 (by rw [ha.2, hb.2])

/-- Skipping an expansion by an empty subset does not change the result. -/
theorem expand_opt (ha : a.Is m) (hb : b.Is k) (hl : m.length = zeros k) :
    ∃ r, (if b.isEmpty then some a else a.transformExpand b) = some r ∧ r.Is (expandMask k m) := by
  by_cases he : b.isEmpty = true
  · rw [if_pos he]
    refine ⟨a, rfl, ha.1, ?_⟩
    rw [hb.zeros_of_isEmpty he] at hl ⊢
    rw [zeros_replicate_zero] at hl
    rw [ha.2, expandMask_zeros _ _ hl]
  · rw [if_neg he]; exact ha.expand hb hl

theorem unionMask_zeros (n : Nat) (cs : List Nat) (h : cs.length = n) :
    unionMask (List.replicate n 0) cs = cs := by
  have := unionMask_append_zeros n [] cs (by omega)
  rw [List.append_nil, List.take_of_length_le (by omega)] at this
  simpa using this

theorem transUnion_opt (ha : a.Is m) (hb : b.Is k) (hl : m.length = zeros k) :
    ∃ r, (if b.isEmpty then some a else a.transformUnion b) = some r ∧ r.Is (unionMask k m) := by
  by_cases he : b.isEmpty = true
  · rw [if_pos he]
    refine ⟨a, rfl, ha.1, ?_⟩
    rw [hb.zeros_of_isEmpty he] at hl ⊢
    rw [zeros_replicate_zero] at hl
    rw [ha.2, unionMask_zeros _ _ hl]
  · rw [if_neg he]; exact ha.transUnion hb hl

theorem add_zeros (m : List Nat) (n : Nat) (h : m.length = n) :
    List.zipWith (fun x y => x + y) m (List.replicate n 0) = m := by
  induction m generalizing n with
  | nil => simp
  | cons x m ih =>
    cases n with
    | zero => simp at h
    | succ n => simp [List.replicate_succ]; exact ih n (by simpa using h)

theorem union_opt (ha : a.Is m) (hb : b.Is k) (hl : m.length = k.length) :
    ∃ r, (if b.isEmpty then some a else a.union b) = some r ∧
      r.Is (List.zipWith (fun x y => x + y) m k) := by
  by_cases he : b.isEmpty = true
  · rw [if_pos he]
    refine ⟨a, rfl, ha.1, ?_⟩
    rw [hb.zeros_of_isEmpty he, ha.2, add_zeros _ _ hl]
  · rw [if_neg he]; exact ha.union hb hl

theorem shrink_opt (ha : a.Is m) (hb : b.Is k) (hl : m.length = k.length) :
    ∃ r, (if b.isEmpty then some a else a.transformShrink b) = some r ∧ r.Is (keep k m) := by
  by_cases he : b.isEmpty = true
  · rw [if_pos he]
    refine ⟨a, rfl, ha.1, ?_⟩
    rw [hb.zeros_of_isEmpty he, ha.2, keep_zeros_of_length _ _ hl.symm]
  · rw [if_neg he]; exact ha.shrink hb hl

end Subset.Is

/-! ### Shuffling between text and tombstones -/

theorem flipMask_flip_keep (m : List Nat) (U : List α) (h : m.length = U.length) :
    keep (flipMask (flipMask m)) U = keep m U := by
  have : ∀ (m : List Nat) (U : List α), m.length = U.length →
      keep (flipMask (flipMask m)) U = keep m U := by
    apply mask_induction <;> simp_all
  exact this m U h

theorem shuffleTombstones_spec {old new : Subset} {m k : List Nat} (ho : old.Is m) (hn : new.Is k)
    (U : List α) (h1 : m.length = U.length) (h2 : k.length = U.length) :
    shuffleTombstones (keep m U) (keep (flipMask m) U) old new = some (keep (flipMask k) U) := by
  obtain ⟨a, a1, a2⟩ := ho.complement
  obtain ⟨b, b1, b2⟩ := hn.complement
  obtain ⟨d, d1, d2, d3, d4⟩ := Delta.synthesize_spec a b U (by rw [a2.2]; simpa) (by rw [b2.2]; simpa)
  rw [a2.2, flipMask_flip_keep m U h1] at d1
  rw [a2.2] at d3 d4
  simp [shuffleTombstones, a1, b1, d1, Delta.apply_spec d _ d2 d3.symm, d4, b2.2]

theorem shuffle_spec {old new : Subset} {m k : List Nat} (ho : old.Is m) (hn : new.Is k)
    (U : List α) (h1 : m.length = U.length) (h2 : k.length = U.length) :
    shuffle (keep m U) (keep (flipMask m) U) old new = some (keep k U, keep (flipMask k) U) := by
  obtain ⟨d, d1, d2, d3, d4⟩ := Delta.synthesize_spec old new U (by rw [ho.2]; exact h1) (by rw [hn.2]; exact h2)
  rw [ho.2] at d1 d3 d4
  simp [shuffle, d1, Delta.apply_spec d _ d2 d3.symm, d4, hn.2, shuffleTombstones_spec ho hn U h1 h2]

end Xi
