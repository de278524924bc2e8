import Verif.Rope.MapperLemmas
import Verif.Rope.MultisetReach

/-!
# Properties C07-C10: subsets

`Subset.counts` (in `Verif/Spec/Multiset.lean`) is the count of every position;
`keep`, `expandMask`, ... are the list-level specifications in
`Verif/Spec/Mask.lean`.
-/

namespace Xi

/-! ### C07 -/

/-- **C07.** Subsets produced by any combination of the public operations
compare equal (structurally, as the derived `PartialEq` does) exactly when they
give every position the same count. -/
theorem C07_subset_equality_is_pointwise {a b : Subset} (ha : a.Reach) (hb : b.Reach) :
    a = b ↔ a.counts = b.counts :=
  ⟨fun h => h ▸ rfl, Subset.ext_counts ha.normal hb.normal⟩

/-- Two different construction paths meet the hypotheses and give equal
subsets: `{[2,5)}` of 7 built in one go, and as a union of `[2,4)` and `[4,5)`. -/
example : ∃ a b c d : Subset, a.Reach ∧ b.Reach ∧ c.Reach ∧ b.union c = some d ∧ a = d ∧
    a.counts = [0, 0, 1, 1, 1, 0, 0] := by
  refine ⟨⟨[⟨2, 0⟩, ⟨3, 1⟩, ⟨2, 0⟩]⟩, ⟨[⟨2, 0⟩, ⟨2, 1⟩, ⟨3, 0⟩]⟩, ⟨[⟨4, 0⟩, ⟨1, 1⟩, ⟨2, 0⟩]⟩, _, ?_, ?_, ?_,
    rfl, rfl, rfl⟩
  · exact .build (.pad (n := 7) (.addRange (b := 2) (e := 5) (count := 1) .new rfl) rfl)
  · exact .build (.pad (n := 7) (.addRange (b := 2) (e := 4) (count := 1) .new rfl) rfl)
  · exact .build (.pad (n := 7) (.addRange (b := 4) (e := 5) (count := 1) .new rfl) rfl)

/-! ### C08 -/

/-- **C08.** On subsets of the same sequence, the algebraic operations do not
panic and act position by position. -/
theorem C08_subset_algebra_pointwise {a b : Subset} (ha : a.Reach) (hb : b.Reach)
    (hl : a.counts.length = b.counts.length) :
    (∃ r, a.union b = some r ∧ r.counts = List.zipWith (fun x y => x + y) a.counts b.counts) ∧
    (∃ r, a.bitxor b = some r ∧ r.counts = List.zipWith (fun x y => x ^^^ y) a.counts b.counts) ∧
    ((∀ p ∈ a.counts.zip b.counts, p.2 ≤ p.1) →
      ∃ r, a.subtract b = some r ∧ r.counts = List.zipWith (fun x y => x - y) a.counts b.counts) ∧
    (∃ r, a.complement = some r ∧
      r.counts = a.counts.map (fun c => if c = 0 then 1 else 0)) := by
  refine ⟨?_, ?_, fun hle => ?_, ?_⟩
  · obtain ⟨r, h1, _, h2⟩ := Subset.union_spec ha.normal hb.normal hl; exact ⟨r, h1, h2⟩
  · obtain ⟨r, h1, _, h2⟩ := Subset.bitxor_spec ha.normal hb.normal hl; exact ⟨r, h1, h2⟩
  · obtain ⟨r, h1, _, h2⟩ := Subset.subtract_spec ha.normal hb.normal hl hle; exact ⟨r, h1, h2⟩
  · obtain ⟨r, h1, _, h2⟩ := Subset.complement_spec ha.normal; exact ⟨r, h1, h2⟩

/-- **C08.** Deleting a subset from a text keeps exactly the elements whose
count is zero, in order; lengths, counts and emptiness are reported
accordingly. -/
theorem C08_delete_and_counts {α : Type} {a : Subset} (ha : a.Reach) (text : List α)
    (hl : a.counts.length = text.length) :
    a.deleteFrom text = some (((text.zip a.counts).filter (fun p => p.2 == 0)).map Prod.fst) ∧
    a.len = text.length ∧
    a.lenAfterDelete = (a.counts.filter (fun c => c == 0)).length ∧
    a.count .nonZero = (a.counts.filter (fun c => c != 0)).length ∧
    (a.isEmpty = true ↔ a.deleteFrom text = some text) := by
  have hd := Subset.deleteFrom_spec a text hl
  refine ⟨?_, ?_, ?_, ?_, ?_⟩
  · rw [hd, keep_eq_filter_zip _ _ Prod.fst (fun _ => rfl)]
  · rw [Subset.len_spec, hl]
  · rw [Subset.lenAfterDelete_spec, zeros, List.countP_eq_length_filter]
  · rw [Subset.count_spec, List.countP_eq_length_filter]; rfl
  · rw [Subset.isEmpty_spec a ha.normal, hd, Option.some.injEq]
    generalize a.counts = cs at hl
    constructor
    · intro h
      have : cs = List.replicate text.length 0 := by
        rw [List.eq_replicate_iff]; exact ⟨hl, h⟩
      rw [this]; simp
    · intro h c hc
      have h1 := keep_length cs text hl
      rw [h, ← hl, zeros] at h1
      have := List.countP_eq_length.1 h1.symm c hc
      simpa using this

example : (⟨[⟨2, 0⟩, ⟨3, 1⟩, ⟨2, 0⟩]⟩ : Subset).Reach ∧
    (⟨[⟨2, 0⟩, ⟨3, 1⟩, ⟨2, 0⟩]⟩ : Subset).deleteFrom ['0', '1', '2', '3', '4', '5', '6'] =
      some ['0', '1', '5', '6'] :=
  ⟨.build (.pad (n := 7) (.addRange (b := 2) (e := 5) (count := 1) .new rfl) rfl), rfl⟩

/-! ### C09 -/

/-- **C09.** Expanding a subset through `o` puts its counts at the unmarked
positions of `o` and zero at the marked ones; shrinking by `o` drops exactly the
marked positions; `transform_union` is expansion followed by union; and
shrinking after expanding is the identity. -/
theorem C09_transform_roundtrip {a o : Subset} (ha : a.Reach) (ho : o.Reach)
    (hl : a.counts.length = o.lenAfterDelete) :
    ∃ r, a.transformExpand o = some r ∧ r.counts.length = o.counts.length ∧
      (∀ p ∈ o.counts.zip r.counts, p.1 ≠ 0 → p.2 = 0) ∧
      ((o.counts.zip r.counts).filter (fun p => p.1 == 0)).map Prod.snd = a.counts ∧
      r.transformShrink o = some a ∧
      a.transformUnion o = r.union o := by
  rw [Subset.lenAfterDelete_spec] at hl
  obtain ⟨r, h1, h2, h3⟩ := Subset.transformExpand_spec ha.normal ho.normal hl
  have hrl : r.counts.length = o.counts.length := by rw [h3]; simp
  refine ⟨r, h1, hrl, ?_, ?_, ?_, ?_⟩
  · rw [h3]
    generalize o.counts = os, a.counts = cs
    intro p hp hp1
    induction os generalizing cs with
    | nil => simp at hp
    | cons n os ih =>
      cases n with
      | zero => cases cs with
        | nil => simp at hp; rcases hp with rfl | hp; rfl; exact ih _ hp
        | cons c cs => simp at hp; rcases hp with rfl | hp; simp at hp1; exact ih _ hp
      | succ n => simp at hp; rcases hp with rfl | hp; rfl; exact ih _ hp
  · have := keep_expandMask o.counts a.counts hl
    rw [← h3] at this
    rw [← this]
    have key : ∀ (os cs : List Nat), os.length = cs.length →
        ((os.zip cs).filter (fun p => p.1 == 0)).map Prod.snd = keep os cs := by
      apply mask_induction
      · rfl
      · intro cs x xs h ih; simpa using ih
      · intro n cs x xs h ih; simpa using ih
    rw [key _ _ hrl.symm, this]
  · obtain ⟨s, g1, g2, g3⟩ := Subset.transformShrink_spec h2 ho.normal hrl
    rw [g1]
    congr 1
    apply Subset.ext_counts g2 ha.normal
    rw [g3, h3, keep_expandMask _ _ hl]
  · obtain ⟨u, g1, g2, g3⟩ := Subset.transformUnion_spec ha.normal ho.normal hl
    obtain ⟨v, k1, k2, k3⟩ := Subset.union_spec h2 ho.normal hrl
    rw [g1, k1]
    congr 1
    apply Subset.ext_counts g2 k2
    rw [g3, k3, h3]
    generalize o.counts = os, a.counts = cs
    induction os generalizing cs with
    | nil => simp
    | cons n os ih =>
      cases n with
      | zero => cases cs with
        | nil => simp [ih]
        | cons c cs => simp [ih]
      | succ n => simp [ih]

/-- The documented equation (multiset.rs:255-260): an element of the larger text
survives the expanded subset iff it was removed by `o` or survives both. -/
theorem C09_expand_deletes {α : Type} {a o r : Subset} (ha : a.Reach) (ho : o.Reach)
    (text : List α) (ht : o.counts.length = text.length)
    (hl : a.counts.length = o.lenAfterDelete) (hr : a.transformUnion o = some r) :
    r.deleteFrom text = (o.deleteFrom text).bind a.deleteFrom := by
  rw [Subset.lenAfterDelete_spec] at hl
  obtain ⟨u, g1, _, g3⟩ := Subset.transformUnion_spec ha.normal ho.normal hl
  rw [hr] at g1; cases g1
  rw [Subset.deleteFrom_spec o _ ht, Option.bind_some,
    Subset.deleteFrom_spec a _ (by rw [keep_length _ _ ht, hl])]
  have key : ∀ (os : List Nat) (text : List α), os.length = text.length → ∀ cs, cs.length = zeros os →
      (unionMask os cs).length = text.length ∧ keep (unionMask os cs) text = keep cs (keep os text) := by
    apply mask_induction
    · simp
    · intro os x xs h ih cs hc
      cases cs with
      | nil => simp at hc
      | cons c cs =>
        simp at hc
        have := ih cs hc
        refine ⟨by simp [this.1], ?_⟩
        cases c <;> simp [this.2]
    · intro n os x xs h ih cs hc
      simp at hc
      have := ih cs hc
      exact ⟨by simp [this.1], by simp [this.2]⟩
  have := key _ _ ht _ hl
  rw [Subset.deleteFrom_spec r _ (by rw [g3]; exact this.1), g3, this.2]

example : (⟨[⟨1, 0⟩, ⟨1, 1⟩]⟩ : Subset).transformExpand ⟨[⟨1, 1⟩, ⟨2, 0⟩, ⟨2, 3⟩]⟩ =
      some ⟨[⟨2, 0⟩, ⟨1, 1⟩, ⟨2, 0⟩]⟩ ∧
    (⟨[⟨1, 0⟩, ⟨1, 1⟩]⟩ : Subset).counts.length =
      (⟨[⟨1, 1⟩, ⟨2, 0⟩, ⟨2, 3⟩]⟩ : Subset).lenAfterDelete ∧
    (⟨[⟨1, 0⟩, ⟨1, 1⟩]⟩ : Subset).Reach ∧ (⟨[⟨1, 1⟩, ⟨2, 0⟩, ⟨2, 3⟩]⟩ : Subset).Reach :=
  ⟨rfl, rfl, .build (.push (len := 1) (count := 1) (.push (len := 1) (count := 0) .new rfl) rfl),
    .build (.push (len := 2) (count := 3) (.push (len := 2) (count := 0)
      (.push (len := 1) (count := 1) .new rfl) rfl) rfl)⟩

/-! ### C10 -/

/-- Number of positions among the first `i` whose count matches. -/
def matchingBefore (s : Subset) (m : CountMatcher) (i : Nat) : Nat :=
  ((s.counts.take i).filter (fun c =>
    match m with
    | .zero => c == 0
    | .nonZero => c != 0
    | .all => true)).length

/-- **C10.** For any non-decreasing sequence of queries, the mapper answers each
with the number of matching positions before it. -/
theorem C10_mapper_counts (s : Subset) (m : CountMatcher) (is : List Nat)
    (h : is.Pairwise (· ≤ ·)) :
    (s.mapper m).queries is = some (is.map (matchingBefore s m)) := by
  rw [Mapper.queries_spec is _ (Mapper.inv_init s m) (fun _ _ => Nat.zero_le _) h]
  congr 1
  apply List.map_congr_left
  intro i _
  rw [matchingBefore, List.countP_eq_length_filter]
  congr 2
  funext c
  cases m <;> rfl

/-- The mapper rejects (panics on) exactly the decreasing queries. -/
theorem C10_mapper_monotone_only (mp : Mapper) (i : Nat) :
    mp.docIndexToSubset i = none ↔ i < mp.lastI := by
  unfold Mapper.docIndexToSubset
  split
  · simp_all
  · cases mp.curRange <;> simp_all

example : [0, 2, 3, 3, 9].Pairwise (· ≤ ·) ∧
    ((⟨[⟨2, 0⟩, ⟨3, 1⟩, ⟨2, 0⟩, ⟨1, 2⟩]⟩ : Subset).mapper .nonZero).queries [0, 2, 3, 3, 9] =
      some [0, 0, 1, 1, 4] := by decide

end Xi
