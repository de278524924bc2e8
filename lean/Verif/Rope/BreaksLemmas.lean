import Verif.Rope.Breaks
import Verif.Rope.TreeBuild
import Verif.Rope.MetricLemmas
import Verif.Rope.CursorMetric

/-!
# Lemmas on breaks

A tree of breaks of length `n` stands for a sequence of `n` flags: the one at
index `i` says whether there is a break at the offset `i + 1`.
-/

namespace Xi

namespace BreaksLeaf

/-- The flags of a leaf. -/
def flags (l : BreaksLeaf) : List Bool := (List.range l.len).map (fun i => l.data.contains (i + 1))

/-- A leaf in order: breaks strictly increase and lie in the leaf. -/
structure Ordered (l : BreaksLeaf) : Prop where
  sorted : l.data.Pairwise (· < ·)
  bounds : ∀ v ∈ l.data, 0 < v ∧ v ≤ l.len

/-- … and of the right size. -/
structure Ok (l : BreaksLeaf) : Prop extends l.Ordered where
  size : l.data.length ≤ 64

theorem flags_length (l : BreaksLeaf) : l.flags.length = l.len := by simp [flags]

theorem flags_get (l : BreaksLeaf) (i : Nat) : l.flags[i]? = if i < l.len then some (l.data.contains (i + 1)) else none := by
  simp only [flags, List.getElem?_map]
  by_cases h : i < l.len
  · simp [List.getElem?_range h, h]
  · simp [List.getElem?_eq_none, h]

theorem flags_true (l : BreaksLeaf) (i : Nat) : l.flags[i]? = some true ↔ i < l.len ∧ i + 1 ∈ l.data := by
  rw [flags_get]
  by_cases h : i < l.len <;> simp [h]

/-- Two sequences of flags are equal if they have the same length and the same
breaks. -/
theorem flags_ext {a b : List Bool} (hl : a.length = b.length) (h : ∀ i : Nat, a[i]? = some true ↔ b[i]? = some true) : a = b := by
  apply List.ext_getElem hl
  intro i h1 h2
  have := h i
  rw [List.getElem?_eq_getElem h1, List.getElem?_eq_getElem h2] at this
  simp at this
  cases ha : a[i] <;> cases hb : b[i] <;> simp_all

theorem count_flags_take (l : BreaksLeaf) (hs : l.data.Pairwise (· < ·)) (hb : ∀ v ∈ l.data, 0 < v) (n : Nat) (hn : n ≤ l.len) :
    (l.flags.take n).count true = l.data.countP (· ≤ n) := by
  induction n with
  | zero =>
    simp only [List.take_zero, List.count_nil]
    symm
    rw [List.countP_eq_zero]
    intro v hv
    have := hb v hv
    simp; omega
  | succ n ih =>
    rw [List.take_add_one, List.count_append, ih (by omega), flags_get, if_pos (by omega)]
    have hsplit : ∀ d : List Nat, d.Pairwise (· < ·) →
        d.countP (· ≤ n + 1) = d.countP (· ≤ n) + (if d.contains (n + 1) then 1 else 0) := by
      intro d hd
      induction d with
      | nil => simp
      | cons x d ihd =>
        rw [List.pairwise_cons] at hd
        rw [List.countP_cons, List.countP_cons, ihd hd.2]
        by_cases hx : x = n + 1
        · subst hx
          have : ¬ (n + 1) ∈ d := fun h => absurd (hd.1 _ h) (by omega)
          simp [this]
        · have e : (n + 1 == x) = false := by simp; omega
          simp only [List.contains_cons, e, Bool.false_or]
          by_cases hle : x ≤ n
          · have : x ≤ n + 1 := by omega
            simp [hle, this]; omega
          · have : ¬ x ≤ n + 1 := by omega
            simp [hle, this]
    rw [hsplit _ hs]
    cases l.data.contains (n + 1) <;> simp

theorem flags_count {l : BreaksLeaf} (h : l.Ordered) : l.flags.count true = l.data.length := by
  have := count_flags_take l h.sorted (fun v hv => (h.bounds v hv).1) l.len (Nat.le_refl _)
  rw [List.take_of_length_le (by rw [flags_length]; omega)] at this
  rw [this, List.countP_eq_length]
  intro v hv
  simp [(h.bounds v hv).2]

/-- In a sequence that increases, the elements up to `x` come first. -/
theorem sorted_le_iff {d : List Nat} (hs : d.Pairwise (· < ·)) (x : Nat) : ∀ {i v : Nat}, d[i]? = some v → (v ≤ x ↔ i < d.countP (· ≤ x)) := by
  induction d with
  | nil => intro i v h; simp at h
  | cons y d ih =>
    rw [List.pairwise_cons] at hs
    intro i v h
    rw [List.countP_cons]
    cases i with
    | zero =>
      simp at h; subst h
      by_cases hy : y ≤ x
      · simp [hy]
      · have : d.countP (· ≤ x) = 0 := by
          rw [List.countP_eq_zero]
          intro z hz
          have := hs.1 z hz
          simp; omega
        simp [hy, this]
    | succ i =>
      rw [List.getElem?_cons_succ] at h
      rw [ih hs.2 h]
      by_cases hy : y ≤ x
      · simp [hy]
      · have : d.countP (· ≤ x) = 0 := by
          rw [List.countP_eq_zero]
          intro z hz
          have := hs.1 z hz
          simp; omega
        simp [hy, this]

theorem search_count {d : List Nat} (hs : d.Pairwise (· < ·)) (x : Nat) :
    upTo d x = d.countP (· ≤ x) := by
  have h : d.countP (· ≤ x) = d.countP (· < x) + (if d.contains x then 1 else 0) := by
    induction d with
    | nil => simp
    | cons y d ih =>
      rw [List.pairwise_cons] at hs
      rw [List.countP_cons, List.countP_cons, ih hs.2]
      by_cases hx : y = x
      · subst hx
        have : ¬ y ∈ d := fun h => absurd (hs.1 _ h) (by omega)
        simp [this]
      · have e : (x == y) = false := by simp; omega
        simp only [List.contains_cons, e, Bool.false_or]
        by_cases hle : y < x
        · have : y ≤ x := by omega
          simp [hle, this]; omega
        · have : ¬ y ≤ x := by omega
          simp [hle, this]
  rw [h, List.countP_eq_length_filter]
  simp only [upTo, binarySearch]
  cases d.contains x <;> simp

/-- Appending the part of `other` between two offsets. -/
theorem append_ok {l m : BreaksLeaf} {s e : Nat} (hl : l.Ordered) (hm : m.Ordered) (hse : s ≤ e) (he : e ≤ m.len) :
    let data := l.data ++ (m.data.filter (fun v => s < v ∧ v ≤ e)).map (fun v => v - s + l.len)
    data.Pairwise (· < ·) ∧ (∀ v ∈ data, 0 < v ∧ v ≤ l.len + (e - s)) ∧
      flags ⟨l.len + (e - s), data⟩ = l.flags ++ (m.flags.take e).drop s := by
  intro data
  have hb : ∀ v ∈ data, 0 < v ∧ v ≤ l.len + (e - s) := by
    intro v hv
    simp only [data, List.mem_append, List.mem_map, List.mem_filter, decide_eq_true_eq] at hv
    rcases hv with hv | ⟨w, ⟨hw, h1⟩, rfl⟩
    · have := hl.bounds v hv; omega
    · omega
  refine ⟨?_, hb, ?_⟩
  · rw [List.pairwise_append]
    refine ⟨hl.sorted, ?_, ?_⟩
    · rw [List.pairwise_map]
      refine List.Pairwise.imp_of_mem ?_ (hm.sorted.filter _)
      intro a b ha hb hab
      simp at ha hb; omega
    · intro a ha b hb
      simp only [List.mem_map, List.mem_filter, decide_eq_true_eq] at hb
      obtain ⟨w, ⟨hw, h1⟩, rfl⟩ := hb
      have := hl.bounds a ha; omega
  · apply flags_ext
    · simp [flags_length]; omega
    · intro i
      rw [flags_true]
      simp only [data, List.mem_append, List.mem_map, List.mem_filter, decide_eq_true_eq]
      by_cases hi : i < l.len
      · rw [List.getElem?_append_left (by rw [flags_length]; exact hi), flags_true]
        constructor
        · rintro ⟨-, h | ⟨w, h1, h2⟩⟩
          · exact ⟨hi, h⟩
          · omega
        · rintro ⟨-, h⟩; exact ⟨by omega, .inl h⟩
      · rw [List.getElem?_append_right (by rw [flags_length]; omega), flags_length, List.getElem?_drop]
        rw [List.getElem?_take]
        by_cases hi2 : s + (i - l.len) < e
        · rw [if_pos hi2, flags_true]
          constructor
          · rintro ⟨-, h | ⟨w, ⟨h1, h2⟩, h3⟩⟩
            · have := hl.bounds _ h; omega
            · refine ⟨by omega, ?_⟩
              rwa [show s + (i - l.len) + 1 = w by omega]
          · rintro ⟨h1, h2⟩
            refine ⟨by omega, .inr ⟨_, ⟨h2, by omega⟩, by omega⟩⟩
        · rw [if_neg hi2]
          simp; omega

theorem splitOff_spec {l : BreaksLeaf} (hs : l.data.Pairwise (· < ·)) (hb : ∀ v ∈ l.data, 0 < v ∧ v ≤ l.len) (h : 64 < l.data.length)
    (h2 : l.data.length ≤ 128) :
    ∃ a b, l.splitOff = some (a, some b) ∧ a.Ok ∧ b.Ok ∧ a.flags ++ b.flags = l.flags ∧ 32 ≤ a.data.length ∧ 32 ≤ b.data.length := by
  have hk : l.data.length / 2 - 1 < l.data.length := by omega
  obtain ⟨u, hu⟩ : ∃ u, l.data[l.data.length / 2 - 1]? = some u := ⟨_, List.getElem?_eq_getElem hk⟩
  have hcut := List.take_append_drop (l.data.length / 2) l.data
  have hpw := hs
  rw [← hcut, List.pairwise_append] at hpw
  obtain ⟨p1, p2, p3⟩ := hpw
  have hum : u ∈ l.data.take (l.data.length / 2) := List.mem_of_getElem? (i := l.data.length / 2 - 1) (by
    rw [List.getElem?_take_of_lt (by omega)]; exact hu)
  have hle : ∀ v ∈ l.data.take (l.data.length / 2), v ≤ u := by
    intro v hv
    obtain ⟨i, hi⟩ := List.mem_iff_getElem?.1 hv
    have hi' : i < l.data.length / 2 := by
      have := (List.getElem?_eq_some_iff.1 hi).1
      rw [List.length_take] at this; omega
    rw [List.getElem?_take_of_lt hi'] at hi
    by_cases e : i = l.data.length / 2 - 1
    · subst e; rw [hu] at hi; injection hi with hi; omega
    · obtain ⟨hi1, hi2⟩ := List.getElem?_eq_some_iff.1 hi
      obtain ⟨hu1, hu2⟩ := List.getElem?_eq_some_iff.1 hu
      have := List.pairwise_iff_getElem.1 hs i (l.data.length / 2 - 1) hi1 hu1 (by omega)
      omega
  have hgt : ∀ v ∈ l.data.drop (l.data.length / 2), u < v := fun v hv => p3 u hum v hv
  have hmem : ∀ v, v ∈ l.data ↔ v ∈ l.data.take (l.data.length / 2) ∨ v ∈ l.data.drop (l.data.length / 2) := by
    intro v
    conv => lhs; rw [← hcut]
    rw [List.mem_append]
  have hul := hb u ((hmem u).2 (.inl hum))
  refine ⟨⟨u, l.data.take (l.data.length / 2)⟩, ⟨l.len - u, (l.data.drop (l.data.length / 2)).map (· - u)⟩, ?_, ⟨⟨p1, ?_⟩, ?_⟩, ⟨⟨?_, ?_⟩, ?_⟩, ?_, ?_, ?_⟩
  · have hany : (l.data.drop (l.data.length / 2)).any (· < u) = false := by
      rw [List.any_eq_false]
      intro v hv
      have := hgt v hv
      simp; omega
    simp only [splitOff, Breaks.maxLeaf]
    rw [if_neg (by omega)]
    simp only [hu, Option.bind_eq_bind, Option.bind_some, hany]
    rw [if_neg (by simp; omega)]
    rfl
  · intro v hv
    exact ⟨(hb v ((hmem v).2 (.inl hv))).1, hle v hv⟩
  · simp; omega
  · rw [List.pairwise_map]
    refine List.Pairwise.imp_of_mem ?_ p2
    intro a b ha hb hab
    have := hgt a ha; omega
  · intro v hv
    simp only [List.mem_map] at hv
    obtain ⟨w, hw, rfl⟩ := hv
    have := hgt w hw
    have := hb w ((hmem w).2 (.inr hw))
    simp only; omega
  · simp; omega
  · apply flags_ext
    · simp [flags_length]; omega
    · intro i
      rw [flags_true l, hmem]
      by_cases hi : i < u
      · rw [List.getElem?_append_left (by rw [flags_length]; exact hi), flags_true]
        simp only
        constructor
        · rintro ⟨-, h⟩; exact ⟨by omega, .inl h⟩
        · rintro ⟨-, h | h⟩
          · exact ⟨hi, h⟩
          · have := hgt _ h; omega
      · rw [List.getElem?_append_right (by rw [flags_length]; exact Nat.le_of_not_lt hi), flags_length, flags_true]
        simp only [List.mem_map]
        constructor
        · rintro ⟨h1, w, h3, h4⟩
          have := hgt w h3
          refine ⟨by omega, .inr ?_⟩
          rwa [show i + 1 = w by omega]
        · rintro ⟨h1, h | h⟩
          · have := hle _ h; omega
          · exact ⟨by omega, _, h, by omega⟩
  · simp; omega
  · simp; omega

end BreaksLeaf

open BreaksLeaf in
/-- What trees of breaks stand for. -/
instance : LeafSpec BreaksLeaf BreaksInfo Bool where
  content := BreaksLeaf.flags
  ok := BreaksLeaf.Ok
  valid _ := True
  valid_nil := trivial
  valid_append _ _ := trivial
  valid_right _ _ := trivial
  valid_left _ _ := trivial
  valid_content _ := trivial
  len_eq {l} _ := (flags_length l).symm
  pos {l} h hc := by
    simp only [TreeLeaf.isOkChild, decide_eq_true_eq] at hc
    have hne : l.data ≠ [] := by intro e; rw [e] at hc; simp at hc
    obtain ⟨v, hv⟩ := List.exists_mem_of_ne_nil _ hne
    have := h.bounds v hv
    rw [flags_length]; omega
  ok_default := ⟨⟨by simp [TreeLeaf.default], by simp [TreeLeaf.default]⟩, by simp [TreeLeaf.default]⟩
  content_default := rfl
  push_whole {l m} hl hm hnot := by
    simp only [TreeLeaf.isOkChild, decide_eq_true_eq] at hnot ⊢
    have hfil : m.data.filter (fun v => 0 < v ∧ v ≤ m.len) = m.data := by
      rw [List.filter_eq_self]
      intro v hv
      simpa using hm.bounds v hv
    obtain ⟨a1, a2, a3⟩ := append_ok (s := 0) (e := m.len) hl.toOrdered hm.toOrdered (Nat.zero_le _) (Nat.le_refl _)
    simp only [Nat.sub_zero, List.drop_zero] at a1 a2 a3
    rw [List.take_of_length_le (by rw [flags_length]; omega)] at a3
    have hlen : (l.data ++ (m.data.filter (fun v => 0 < v ∧ v ≤ m.len)).map (fun v => v + l.len)).length = l.data.length + m.data.length := by
      rw [List.length_append, List.length_map, hfil]
    have hls := hl.size
    have hms := hm.size
    have hpush : TreeLeaf.push l m ⟨0, TreeLeaf.len m⟩ = splitOff ⟨l.len + m.len, l.data ++ (m.data.filter (fun v => 0 < v ∧ v ≤ m.len)).map (fun v => v + l.len)⟩ := by
      simp [TreeLeaf.push, push, TreeLeaf.len]
    rw [hpush]
    by_cases h64 : l.data.length + m.data.length ≤ 64
    · left
      refine ⟨_, by simp only [splitOff, hlen]; rw [if_pos h64], ⟨⟨a1, a2⟩, ?_⟩, a3, ?_⟩
      · simp only; rw [hlen]; exact h64
      · simp only; rw [hlen]; omega
    · right
      obtain ⟨a, b, e1, e2, e3, e4, e5, e6⟩ := splitOff_spec (l := ⟨l.len + m.len, _⟩) a1 a2 (by simp only; rw [hlen]; omega) (by simp only; rw [hlen]; omega)
      exact ⟨a, b, e1, e2, e3, by rw [e4, a3], e5, e6⟩
  push_slice {l s e} hl hse he _ _ := by
    rw [flags_length] at he
    have h0 : BreaksLeaf.Ok ⟨0, []⟩ := ⟨⟨by simp, by simp⟩, by simp⟩
    obtain ⟨a1, a2, a3⟩ := append_ok h0.toOrdered hl.toOrdered hse he
    simp only [Nat.zero_add, List.nil_append] at a1 a2 a3
    have hsz : ((l.data.filter (fun v => s < v ∧ v ≤ e)).map (fun v => v - s)).length ≤ 64 := by
      rw [List.length_map]
      have := List.length_filter_le (fun v => decide (s < v ∧ v ≤ e)) l.data
      have := hl.size
      omega
    refine ⟨_, ?_, ⟨⟨a1, a2⟩, hsz⟩, a3⟩
    simp only [TreeLeaf.push, push, TreeLeaf.default, Nat.add_zero, List.nil_append]
    rw [if_neg (by omega), Nat.min_eq_left he]
    simp only [splitOff]
    rw [if_pos (by simpa using hsz)]
    simp

/-- There is a break at the offset `i`. -/
def BreakAt (t : List Bool) (i : Nat) : Prop := 0 < i ∧ t[i - 1]? = some true

theorem counts_breaks : Counts breaksMetric (List.count true) where
  nil := rfl
  append _ _ := List.count_append
  leaf _ h := (BreaksLeaf.flags_count h.toOrdered).symm
  accumulate _ _ _ _ := rfl

theorem counts_breaksBase : Counts breaksBaseMetric (List.length (α := Bool)) where
  nil := rfl
  append _ _ := List.length_append
  leaf l _ := (BreaksLeaf.flags_length l).symm
  accumulate _ _ _ _ := rfl

theorem breakAt_leaf {l : BreaksLeaf} (h : l.Ordered) (i : Nat) : BreakAt l.flags i ↔ i ∈ l.data := by
  rw [BreakAt, BreaksLeaf.flags_true]
  constructor
  · rintro ⟨h1, h2, h3⟩; rwa [show i - 1 + 1 = i by omega] at h3
  · intro hm
    have := h.bounds i hm
    exact ⟨by omega, by omega, by rwa [show i - 1 + 1 = i by omega]⟩

theorem breaksPrev_spec (B : Nat → Prop) (o : Nat) : ∀ (d : List Nat) (last : Option Nat), d.Pairwise (· < ·) →
    (∀ v ∈ d, ∀ w, last = some w → w < v) → (∀ w, last = some w → w < o ∧ B w) →
    (∀ k, B k ∧ (∀ w, last = some w → w < k) ↔ k ∈ d) →
    IsPrev B o (breaksPrev o last d) := by
  intro d
  induction d with
  | nil =>
    intro last _ _ h2 h3
    cases last with
    | none =>
      intro k _ hB
      simpa using (h3 k).1 ⟨hB, by simp⟩
    | some w =>
      refine ⟨(h2 w rfl).1, (h2 w rfl).2, ?_⟩
      intro k hk _ hB
      simpa using (h3 k).1 ⟨hB, by simpa using hk⟩
  | cons v d ih =>
    intro last hs h1 h2 h3
    rw [List.pairwise_cons] at hs
    rw [breaksPrev]
    have hv := (h3 v).2 (by simp)
    by_cases ho : o ≤ v
    · rw [if_pos ho]
      have hall : ∀ k ∈ v :: d, o ≤ k := by
        intro k hk
        rcases List.mem_cons.1 hk with rfl | hk
        · exact ho
        · have := hs.1 k hk; omega
      cases last with
      | none =>
        intro k hk hB
        have := hall k ((h3 k).1 ⟨hB, by simp⟩); omega
      | some w =>
        refine ⟨(h2 w rfl).1, (h2 w rfl).2, ?_⟩
        intro k hk hk2 hB
        have := hall k ((h3 k).1 ⟨hB, by simpa using hk⟩); omega
    · rw [if_neg ho]
      refine ih (some v) hs.2 ?_ ?_ ?_
      · intro x hx w hw; injection hw with hw; subst hw; exact hs.1 x hx
      · intro w hw; injection hw with hw; subst hw; exact ⟨by omega, hv.1⟩
      · intro k
        constructor
        · rintro ⟨hB, hk⟩
          have hk := hk v rfl
          rcases List.mem_cons.1 ((h3 k).1 ⟨hB, fun w hw => Nat.lt_trans (h1 v (by simp) w hw) hk⟩) with rfl | h
          · omega
          · exact h
        · intro hk
          refine ⟨((h3 k).2 (by simp [hk])).1, ?_⟩
          intro w hw; injection hw with hw; subst hw; exact hs.1 k hk

theorem finds_breaks : Finds breaksMetric (List.count true) BreakAt where
  counts := counts_breaks
  inner := by
    intro a c b k _ _ _ h0 hk
    simp only [BreakAt]
    rw [List.getElem?_append_right (by omega), show a.length + k - 1 - a.length = k - 1 by omega,
      List.getElem?_append_left (by omega)]
    constructor
    · exact fun h => ⟨h0, h.2⟩
    · exact fun h => ⟨by omega, h.2⟩
  start := by intro _ t h; exact absurd h.1 (by omega)
  ends := by intro h; cases h
  boundary := by
    intro l o hl _
    refine ⟨_, rfl, ?_⟩
    show _ ↔ BreakAt l.flags o
    rw [breakAt_leaf hl.toOrdered]
    simp [BreaksLeaf.binarySearch]
  prev := by
    intro l o hl h0 ho
    refine ⟨_, rfl, ?_⟩
    refine breaksPrev_spec _ o l.data none hl.sorted (by simp) (by simp) ?_
    intro k
    show BreakAt l.flags k ∧ _ ↔ _
    rw [breakAt_leaf hl.toOrdered]; simp
  next := by
    intro l o hl ho _
    have hc := BreaksLeaf.search_count hl.sorted o
    have hle : l.data.countP (· ≤ o) ≤ l.data.length := List.countP_le_length
    simp only [breaksMetric]
    rw [hc]
    by_cases he : l.data.countP (· ≤ o) = l.data.length
    · rw [if_pos he]
      refine ⟨none, rfl, ?_⟩
      intro k hk _ hB
      change BreakAt l.flags k at hB
      rw [breakAt_leaf hl.toOrdered] at hB
      have := List.countP_eq_length.1 he k hB
      simp at this; omega
    · rw [if_neg he]
      have hlt : l.data.countP (· ≤ o) < l.data.length := by omega
      obtain ⟨v, hv⟩ : ∃ v, l.data[l.data.countP (· ≤ o)]? = some v := ⟨_, List.getElem?_eq_getElem hlt⟩
      refine ⟨some v, by simp [hv], ?_⟩
      have hvm := List.mem_of_getElem? hv
      have h1 : o < v := by
        have := BreaksLeaf.sorted_le_iff hl.sorted o hv
        omega
      refine ⟨h1, ?_, (breakAt_leaf hl.toOrdered v).2 hvm, ?_⟩
      · show v ≤ l.flags.length
        rw [BreaksLeaf.flags_length]; exact (hl.bounds v hvm).2
      · intro k hk1 hk2 hB
        change BreakAt l.flags k at hB
        rw [breakAt_leaf hl.toOrdered] at hB
        obtain ⟨i, hi⟩ := List.mem_iff_getElem?.1 hB
        have h2 := BreaksLeaf.sorted_le_iff hl.sorted o hi
        obtain ⟨i1, i2⟩ := List.getElem?_eq_some_iff.1 hi
        obtain ⟨j1, j2⟩ := List.getElem?_eq_some_iff.1 hv
        rcases Nat.lt_trichotomy i (l.data.countP (· ≤ o)) with h | h | h
        · omega
        · subst h; omega
        · have := List.pairwise_iff_getElem.1 hl.sorted _ _ j1 i1 h
          omega
  zero := by
    intro l hl
    show l.flags.count true = 0 ↔ ∀ k, 0 < k → k ≤ l.flags.length → ¬ BreakAt l.flags k
    constructor
    · intro h k _ _ hB
      exact (List.count_eq_zero.1 h) (List.mem_of_getElem? hB.2)
    · intro h
      rw [List.count_eq_zero]
      intro hm
      obtain ⟨i, hi⟩ := List.mem_iff_getElem?.1 hm
      have hlt := (List.getElem?_eq_some_iff.1 hi).1
      exact h (i + 1) (by omega) (by omega) ⟨by omega, by simpa using hi⟩

namespace Breaks

theorem count_spec {b : Breaks} (hb : b.Balanced) {off : Nat} (h : off ≤ b.text.length) :
    b.count off = some ((b.text.take off).count true) := by
  simp only [count]
  by_cases h0 : off = 0
  · subst h0; simp [Node.convertMetrics]
  · obtain ⟨l, pre, post, m', k1, k2, k3, k4, k5, k6, k7, k8⟩ := Node.convertMetrics_fragment counts_breaksBase counts_breaks rfl hb
      (m1 := off) (by omega) h
    change m' ≤ l.flags.length at k6
    have hf : breaksMetric.fromBaseUnits l m' = some ((l.flags.take m').count true) := by
      have := BreaksLeaf.search_count k1.sorted m'
      rw [BreaksLeaf.count_flags_take l k1.sorted (fun v hv => (k1.bounds v hv).1) m' (by rwa [BreaksLeaf.flags_length] at k6), ← this]
      rfl
    rw [k8]
    simp only [breaksBaseMetric, Option.bind_some, hf]
    rw [k4, k5, List.take_length_add_append, show LeafSpec.content (L := BreaksLeaf) l = l.flags from rfl,
      List.take_append_of_le_length k6, List.count_append]

theorem countBaseUnits_spec {b : Breaks} (hb : b.Balanced) {n : Nat} (hpos : 0 < n) (h : n ≤ b.text.count true) :
    ∃ o, b.countBaseUnits n = some o ∧ o ≤ b.text.length ∧ BreakAt b.text o ∧ (b.text.take o).count true = n := by
  obtain ⟨l, pre, post, m', k1, k2, k3, k4, k5, k6, k7, k8⟩ := Node.convertMetrics_fragment counts_breaks counts_breaksBase rfl hb
    hpos h
  change m' ≤ l.flags.count true at k6
  rw [BreaksLeaf.flags_count k1.toOrdered] at k6
  obtain ⟨v, hv⟩ : ∃ v, l.data[m' - 1]? = some v := ⟨_, List.getElem?_eq_getElem (by omega)⟩
  have hvm := List.mem_of_getElem? hv
  have hvb := k1.bounds v hvm
  have hcnt : l.data.countP (· ≤ v) = m' := by
    have h1 := (BreaksLeaf.sorted_le_iff k1.sorted v hv).1 (Nat.le_refl _)
    by_cases hlt : m' < l.data.countP (· ≤ v)
    · have hlen : l.data.countP (· ≤ v) ≤ l.data.length := List.countP_le_length
      obtain ⟨w, hw⟩ : ∃ w, l.data[m']? = some w := ⟨_, List.getElem?_eq_getElem (by omega)⟩
      have h2 := (BreaksLeaf.sorted_le_iff k1.sorted v hw).2 hlt
      obtain ⟨i1, i2⟩ := List.getElem?_eq_some_iff.1 hv
      obtain ⟨j1, j2⟩ := List.getElem?_eq_some_iff.1 hw
      have := List.pairwise_iff_getElem.1 k1.sorted _ _ i1 j1 (by omega)
      omega
    · omega
  change Node.text b = pre ++ (l.flags ++ post) at k4
  refine ⟨pre.length + v, ?_, ?_, ?_, ?_⟩
  · rw [countBaseUnits, k8]
    simp only [breaksMetric]
    rw [if_neg (by omega), if_neg (by omega), hv]
    simp [breaksBaseMetric]
  · rw [k4]; simp [BreaksLeaf.flags_length]; omega
  · rw [k4]
    have := (finds_breaks.inner (a := pre) (c := l.flags) (b := post) (k := v) trivial trivial trivial hvb.1 (by rw [BreaksLeaf.flags_length]; exact hvb.2)).2
    exact this ((breakAt_leaf k1.toOrdered v).2 hvm)
  · rw [k4, List.take_length_add_append, List.take_append_of_le_length (by rw [BreaksLeaf.flags_length]; exact hvb.2), List.count_append,
      BreaksLeaf.count_flags_take l k1.sorted (fun v hv => (k1.bounds v hv).1) v hvb.2, hcnt, k5]

end Breaks

end Xi
