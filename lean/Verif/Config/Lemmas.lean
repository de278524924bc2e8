import Verif.Spec.Config

/-!
# Facts about maps, tables and stacks of tables
-/

namespace Xi

namespace Config

set_option linter.unusedSectionVars false

variable {K : Type} [DecidableEq K] {A : Type}

theorem lookup_cons_ite (m : Map K A) (a j : K) (v : A) : List.lookup j ((a, v) :: m) = if j = a then some v else m.lookup j := by
  rw [List.lookup_cons]
  by_cases h : j = a
  · simp [h]
  · rw [if_neg h, show (j == a) = false by simpa using h]

theorem lookup_filter_ne (m : Map K A) (k j : K) : (m.filter fun e => e.1 != k).lookup j = if j = k then none else m.lookup j := by
  induction m with
  | nil => simp
  | cons e m ih =>
    obtain ⟨a, v⟩ := e
    rw [List.filter_cons]
    by_cases ha : a = k
    · subst ha
      simp only [bne_self_eq_false, Bool.false_eq_true, if_false, ih, lookup_cons_ite]
      split <;> rfl
    · have : (a != k) = true := by simpa using ha
      simp only [this, if_true, lookup_cons_ite, ih]
      by_cases hj : j = a
      · subst hj
        simp [ha]
      · simp [hj]

theorem lookup_set (m : Map K A) (k j : K) (v : A) : (set m k v).lookup j = if j = k then some v else m.lookup j := by
  rw [set, lookup_cons_ite, lookup_filter_ne]
  split <;> rfl

theorem lookup_unset (m : Map K A) (k j : K) : (unset m k).lookup j = if j = k then none else m.lookup j := lookup_filter_ne m k j

/-- Every key occurs once. -/
def Distinct (m : Map K A) : Prop := (m.map (·.1)).Nodup

theorem distinct_unset {m : Map K A} (h : Distinct m) (k : K) : Distinct (unset m k) := by
  unfold Distinct unset
  exact h.sublist ((List.filter_sublist).map _)

theorem distinct_set {m : Map K A} (h : Distinct m) (k : K) (v : A) : Distinct (set m k v) := by
  unfold Distinct set
  rw [List.map_cons, List.nodup_cons]
  refine ⟨?_, distinct_unset h k⟩
  simp

theorem mem_iff_lookup {m : Map K A} (h : Distinct m) {k : K} {v : A} : (k, v) ∈ m ↔ m.lookup k = some v := by
  induction m with
  | nil => simp
  | cons e m ih =>
    obtain ⟨a, x⟩ := e
    simp only [Distinct, List.map_cons, List.nodup_cons] at h
    rw [lookup_cons_ite, List.mem_cons, ih h.2]
    by_cases hk : k = a
    · subst hk
      rw [if_pos rfl]
      constructor
      · rintro (h1 | h1)
        · cases h1; rfl
        · exact absurd (List.mem_map.2 ⟨(k, v), (ih h.2).2 h1, rfl⟩) h.1
      · intro h1; cases h1; exact .inl rfl
    · rw [if_neg hk]
      constructor
      · rintro (h1 | h1)
        · cases h1; exact absurd rfl hk
        · exact h1
      · exact .inr

theorem keys_iff {m : Map K A} {k : K} : k ∈ m.map (·.1) ↔ (m.lookup k).isSome = true := by
  induction m with
  | nil => simp
  | cons e m ih =>
    obtain ⟨a, x⟩ := e
    rw [lookup_cons_ite, List.map_cons, List.mem_cons, ih]
    by_cases hk : k = a <;> simp [hk]

theorem lookup_filter {m : Map K A} (h : Distinct m) (p : K × A → Bool) (k : K) :
    (m.filter p).lookup k = (m.lookup k).bind fun v => if p (k, v) then some v else none := by
  induction m with
  | nil => simp
  | cons e m ih =>
    obtain ⟨a, x⟩ := e
    simp only [Distinct, List.map_cons, List.nodup_cons] at h
    have hn : m.lookup a = none := by
      have := mt keys_iff.2 h.1
      rwa [Bool.not_eq_true, Option.isSome_eq_false_iff, Option.isNone_iff_eq_none] at this
    rw [lookup_cons_ite, List.filter_cons]
    by_cases hp : p (a, x) = true
    · rw [if_pos hp, lookup_cons_ite]
      by_cases hk : k = a
      · subst hk; simp [hp]
      · rw [if_neg hk, if_neg hk, ih h.2]
    · rw [if_neg hp, ih h.2]
      by_cases hk : k = a
      · subst hk; simp [hp, hn]
      · rw [if_neg hk]

variable {V : Type} [DecidableEq V]

theorem lookup_insertAll (m user : Table V) (k : String) : (insertAll m user).lookup k = (user.lookup k).or (m.lookup k) := by
  induction user with
  | nil => simp [insertAll]
  | cons e user ih =>
    obtain ⟨a, v⟩ := e
    rw [insertAll, List.foldr_cons, lookup_set, lookup_cons_ite]
    by_cases hk : k = a
    · simp [hk]
    · rw [if_neg hk, if_neg hk]; exact ih

/-- What a pair says: the user's value, or the basic one. -/
def Pair.says (p : Pair V) (k : String) : Option V := ((p.user.getD []).lookup k).or ((p.base.getD []).lookup k)

/-- The cache of a pair is right. -/
def Pair.Ok (p : Pair V) : Prop := ∀ k, p.cache.lookup k = p.says k

theorem withBase_ok (base : Option (Table V)) : (Pair.withBase base).Ok := by
  intro k; simp [Pair.withBase, Pair.says]

theorem rebuild_ok (p : Pair V) : p.rebuild.Ok := by
  intro k
  unfold Pair.rebuild Pair.says
  cases p.user with
  | none => simp
  | some u => simp [lookup_insertAll]

theorem lookup_update (null : V) (m changes : Table V) (k : String) :
    (changes.foldr (updateEntry null) m).lookup k = World.modified null (m.lookup ·) (changes.lookup ·) k := by
  simp only [World.modified]
  induction changes with
  | nil => simp
  | cons e changes ih =>
    obtain ⟨a, v⟩ := e
    rw [List.foldr_cons, updateEntry]
    by_cases hv : v = null
    · rw [if_pos hv, lookup_unset, lookup_cons_ite]
      by_cases hk : k = a
      · simp [hk, hv]
      · rw [if_neg hk, if_neg hk]; exact ih
    · rw [if_neg hv, lookup_set, lookup_cons_ite]
      by_cases hk : k = a
      · simp [hk, hv]
      · rw [if_neg hk, if_neg hk]; exact ih

theorem lookup_collateTable : ∀ (t out : Table V) (k : String), (collateTable out t).lookup k = (out.lookup k).or (t.lookup k)
  | [], out, k => by simp [collateTable]
  | (a, v) :: t, out, k => by
    have ih := lookup_collateTable t (if (out.lookup a).isSome then out else set out a v) k
    rw [collateTable, List.foldl_cons]
    refine Eq.trans ih ?_
    rw [lookup_cons_ite]
    cases ha : out.lookup a with
    | some x =>
      simp only [Option.isSome_some, if_true]
      by_cases hk : k = a
      · subst hk; simp [ha]
      · rw [if_neg hk]
    | none =>
      simp only [Option.isSome_none, Bool.false_eq_true, if_false, lookup_set]
      by_cases hk : k = a
      · subst hk; simp [ha]
      · rw [if_neg hk, if_neg hk]

theorem distinct_collateTable : ∀ (t out : Table V), Distinct out → Distinct (collateTable out t)
  | [], out, h => h
  | (a, v) :: t, out, h => by
    rw [collateTable, List.foldl_cons]
    refine distinct_collateTable t _ ?_
    split
    · exact h
    · exact distinct_set h a v

theorem lookup_collateFrom : ∀ (stack : List (Table V)) (out : Table V) (k : String), (stack.foldl collateTable out).lookup k = (out.lookup k).or (stackGet stack k)
  | [], out, k => by simp [stackGet]
  | t :: stack, out, k => by
    rw [List.foldl_cons, lookup_collateFrom stack, lookup_collateTable, Option.or_assoc]
    congr 1
    simp only [stackGet, List.findSome?_cons]
    cases t.lookup k <;> simp

theorem lookup_collate (stack : List (Table V)) (k : String) : (collate stack).lookup k = stackGet stack k := by
  rw [collate, lookup_collateFrom]; simp

theorem distinct_collate (stack : List (Table V)) : Distinct (collate stack) := by
  unfold collate
  have : ∀ (stack : List (Table V)) (out : Table V), Distinct out → Distinct (stack.foldl collateTable out) := by
    intro stack
    induction stack with
    | nil => exact fun _ h => h
    | cons t stack ih => exact fun out h => ih _ (distinct_collateTable t out h)
  exact this stack [] (by simp [Distinct])

theorem diff_spec (self other : List (Table V)) : Reports (stackGet other) (stackGet self) (diff self other) := by
  have hl : ∀ k, ((collate self).filter fun e => decide (stackGet other e.1 ≠ some e.2)).lookup k = if stackGet other k = stackGet self k then none else stackGet self k := by
    intro k
    rw [lookup_filter (distinct_collate self), lookup_collate]
    cases h : stackGet self k with
    | none => simp
    | some v =>
      by_cases h2 : stackGet other k = some v <;> simp [h2]
  have hd : diff self other = if ((collate self).filter fun e => decide (stackGet other e.1 ≠ some e.2)).isEmpty then none
    else some ((collate self).filter fun e => decide (stackGet other e.1 ≠ some e.2)) := rfl
  rw [hd]
  constructor
  · intro k
    rw [← hl k]
    split
    · rename_i h
      rw [List.isEmpty_iff.1 h]
      rfl
    · rfl
  · split
    · simp
    · rename_i h
      simp only [ne_eq, Option.some.injEq]
      intro h2
      rw [h2] at h
      simp at h

end Config

end Xi
