import Verif.Spec.Multiset
import Verif.Rope.MaskLemmas

/-! # Lemmas about the subset model -/

namespace Xi

@[simp] theorem segCounts_nil : segCounts [] = [] := rfl
@[simp] theorem segCounts_cons (s rest) :
    segCounts (s :: rest) = List.replicate s.len s.count ++ segCounts rest := by
  simp [segCounts]
@[simp] theorem segCounts_append (a b) : segCounts (a ++ b) = segCounts a ++ segCounts b := by
  simp [segCounts]

/-! ### Normal form -/

theorem NormalSegs.tail {s rest} (h : NormalSegs (s :: rest)) : NormalSegs rest := by
  cases rest with
  | nil => trivial
  | cons t rest => exact h.2.2

theorem NormalSegs.head {s rest} (h : NormalSegs (s :: rest)) : 0 < s.len := by
  cases rest with
  | nil => exact h
  | cons t rest => exact h.1

theorem NormalSegs.pos {segs} (h : NormalSegs segs) : ∀ s ∈ segs, 0 < s.len := by
  induction segs with
  | nil => simp
  | cons s rest ih =>
    intro t ht
    rcases List.mem_cons.1 ht with rfl | ht
    · exact h.head
    · exact ih h.tail t ht

/-- After a normal segment list's head run, the next count differs. -/
theorem NormalSegs.next {s rest} (h : NormalSegs (s :: rest)) :
    ∀ c cs, segCounts rest = c :: cs → c ≠ s.count := by
  intro c cs hc
  cases rest with
  | nil => simp at hc
  | cons t rest =>
    have ht := h.tail.head
    obtain ⟨n, hn⟩ : ∃ n, t.len = n + 1 := ⟨t.len - 1, by omega⟩
    simp [hn, List.replicate_succ] at hc
    have := h.2.1
    omega

theorem run_inj {a b : Nat} {n m : Nat} {xs ys : List Nat} (hn : 0 < n) (hm : 0 < m)
    (hx : ∀ c cs, xs = c :: cs → c ≠ a) (hy : ∀ c cs, ys = c :: cs → c ≠ b)
    (h : List.replicate n a ++ xs = List.replicate m b ++ ys) : n = m ∧ a = b ∧ xs = ys := by
  induction n generalizing m with
  | zero => omega
  | succ n ih =>
    obtain ⟨m, rfl⟩ : ∃ k, m = k + 1 := ⟨m - 1, by omega⟩
    simp only [List.replicate_succ, List.cons_append, List.cons.injEq] at h
    obtain ⟨rfl, h⟩ := h
    rcases Nat.eq_zero_or_pos n with rfl | hn'
    · rcases Nat.eq_zero_or_pos m with rfl | hm'
      · simp_all
      · obtain ⟨m, rfl⟩ : ∃ k, m = k + 1 := ⟨m - 1, by omega⟩
        simp [List.replicate_succ] at h
        exact absurd rfl (hx _ _ h)
    · rcases Nat.eq_zero_or_pos m with rfl | hm'
      · obtain ⟨n, rfl⟩ : ∃ k, n = k + 1 := ⟨n - 1, by omega⟩
        simp [List.replicate_succ] at h
        exact absurd rfl (hy _ _ h.symm)
      · have := ih hn' hm' h
        exact ⟨by omega, rfl, this.2.2⟩

/-- Canonical representation: normal segment lists with the same counts are
equal. -/
theorem NormalSegs.ext {a b : List Segment} (ha : NormalSegs a) (hb : NormalSegs b)
    (h : segCounts a = segCounts b) : a = b := by
  induction a generalizing b with
  | nil =>
    cases b with
    | nil => rfl
    | cons t rest => have := hb.head; simp at h; omega
  | cons s rest ih =>
    cases b with
    | nil => have := ha.head; simp at h; omega
    | cons t rest' =>
      simp only [segCounts_cons] at h
      obtain ⟨h1, h2, h3⟩ := run_inj ha.head hb.head ha.next hb.next h
      rw [ih ha.tail hb.tail h3]
      cases s; cases t; simp_all

theorem Subset.ext_counts {a b : Subset} (ha : a.Normal) (hb : b.Normal)
    (h : a.counts = b.counts) : a = b := by
  cases a; cases b; congr; exact NormalSegs.ext ha hb h

/-! ### The builder -/

theorem segCounts_pushLast (len count) (segs) :
    segCounts (SubsetBuilder.pushLast len count segs) = segCounts segs ++ List.replicate len count := by
  match segs with
  | [] => simp [SubsetBuilder.pushLast]
  | [s] =>
    simp only [SubsetBuilder.pushLast]
    split
    · subst_vars; simp [List.replicate_append_replicate]
    · simp
  | s :: t :: rest =>
    have ih := segCounts_pushLast len count (t :: rest)
    simp only [SubsetBuilder.pushLast]
    rw [segCounts_cons, ih]; simp

theorem pushLast_head (len count s rest) :
    ∃ t rest', SubsetBuilder.pushLast len count (s :: rest) = t :: rest' ∧ t.count = s.count := by
  cases rest with
  | nil =>
    simp only [SubsetBuilder.pushLast]
    split
    · exact ⟨_, _, rfl, rfl⟩
    · exact ⟨_, _, rfl, rfl⟩
  | cons t rest => exact ⟨_, _, rfl, rfl⟩

theorem NormalSegs.pushLast {len count segs} (hl : 0 < len) (h : NormalSegs segs) :
    NormalSegs (SubsetBuilder.pushLast len count segs) := by
  match segs with
  | [] => exact hl
  | [s] =>
    simp only [SubsetBuilder.pushLast]
    have := h.head
    split
    · simp [NormalSegs]; omega
    · exact ⟨this, by assumption, hl⟩
  | s :: t :: rest =>
    simp only [SubsetBuilder.pushLast]
    have ih := NormalSegs.pushLast (count := count) hl h.tail
    obtain ⟨t', rest', h1, h2⟩ := pushLast_head len count t rest
    rw [h1] at ih ⊢
    exact ⟨h.head, by rw [h2]; exact h.2.1, ih⟩

/-- The builder's representation invariant. -/
structure SubsetBuilder.Ok (sb : SubsetBuilder) (cs : List Nat) : Prop where
  normal : NormalSegs sb.segments
  counts : segCounts sb.segments = cs
  total : sb.totalLen = cs.length

theorem SubsetBuilder.ok_new : SubsetBuilder.new.Ok [] := ⟨trivial, rfl, rfl⟩

theorem SubsetBuilder.Ok.push {sb cs} (h : SubsetBuilder.Ok sb cs) {len} (hl : 0 < len) (count) :
    ∃ sb', sb.pushSegment len count = some sb' ∧ sb'.Ok (cs ++ List.replicate len count) := by
  refine ⟨_, by simp [SubsetBuilder.pushSegment, hl]; rfl, h.normal.pushLast hl, ?_, ?_⟩
  · simp [segCounts_pushLast, h.counts]
  · simp [h.total]

theorem SubsetBuilder.Ok.pad {sb cs} (h : SubsetBuilder.Ok sb cs) (n : Nat) :
    ∃ sb', sb.padToLen n = some sb' ∧ sb'.Ok (cs ++ List.replicate (n - cs.length) 0) := by
  unfold SubsetBuilder.padToLen
  split
  · have := h.push (len := n - sb.totalLen) (by omega) 0
    rwa [h.total] at this ⊢
  · refine ⟨sb, rfl, ?_⟩
    have : n - cs.length = 0 := by rw [← h.total]; omega
    simpa [this]

theorem SubsetBuilder.Ok.addRange {sb cs} (h : SubsetBuilder.Ok sb cs) {b e : Nat} (hb : cs.length ≤ b)
    (he : b ≤ e) (count) :
    ∃ sb', sb.addRange b e count = some sb' ∧
      sb'.Ok (if b = e then cs else
        cs ++ List.replicate (b - cs.length) 0 ++ List.replicate (e - b) count) := by
  unfold SubsetBuilder.addRange
  rw [h.total, if_neg (by omega)]
  by_cases hbe : b = e
  · rw [if_pos (by omega)]
    exact ⟨sb, rfl, by simpa [hbe] using h⟩
  · rw [if_neg (by omega), if_neg hbe]
    by_cases hg : b > cs.length
    · obtain ⟨sb1, h1, h2⟩ := h.push (len := b - cs.length) (by omega) 0
      obtain ⟨sb2, h3, h4⟩ := h2.push (len := e - b) (by omega) count
      rw [if_pos hg]
      exact ⟨sb2, by simp [h1, h3], h4⟩
    · obtain ⟨sb2, h3, h4⟩ := h.push (len := e - b) (by omega) count
      rw [if_neg hg]
      refine ⟨sb2, by simp [h3], ?_⟩
      have : b - cs.length = 0 := by omega
      simpa [this] using h4

/-- Pushing a list of (length, count) pairs. -/
theorem SubsetBuilder.foldlM_push {γ : Type} (f : SubsetBuilder → γ → Option SubsetBuilder)
    (d : γ → List Nat) (l : List γ)
    (hf : ∀ sb cs z, z ∈ l → SubsetBuilder.Ok sb cs → ∃ sb', f sb z = some sb' ∧ sb'.Ok (cs ++ d z)) :
    ∀ sb cs, SubsetBuilder.Ok sb cs →
      ∃ sb', l.foldlM f sb = some sb' ∧ sb'.Ok (cs ++ l.flatMap d) := by
  induction l with
  | nil => intro sb cs h; exact ⟨sb, rfl, by simpa using h⟩
  | cons z l ih =>
    intro sb cs h
    obtain ⟨sb1, h1, h2⟩ := hf sb cs z (by simp) h
    obtain ⟨sb2, h3, h4⟩ := ih (fun sb cs z hz => hf sb cs z (by simp [hz])) sb1 _ h2
    exact ⟨sb2, by simp [h1, h3], by simpa using h4⟩

@[simp] theorem SubsetBuilder.build_counts (sb : SubsetBuilder) :
    sb.build.counts = segCounts sb.segments := rfl

theorem Subset.new_spec (n) :
    ∃ s, Subset.new n = some s ∧ s.Normal ∧ s.counts = List.replicate n 0 := by
  obtain ⟨sb, h1, h2⟩ := SubsetBuilder.ok_new.pad n
  exact ⟨sb.build, by simp [Subset.new, h1], h2.normal, by simpa using h2.counts⟩

/-! ### count, len, is_empty -/

def CountMatcher.matchesCount (m : CountMatcher) (c : Nat) : Bool :=
  match m with
  | .zero => c == 0
  | .nonZero => c != 0
  | .all => true

theorem CountMatcher.matchesSeg_eq (m : CountMatcher) (s) : m.matchesSeg s = m.matchesCount s.count := by
  cases m <;> rfl

theorem Subset.count_spec (s : Subset) (m) : s.count m = s.counts.countP m.matchesCount := by
  rcases s with ⟨segs⟩
  simp only [Subset.count, Subset.counts]
  induction segs with
  | nil => rfl
  | cons t rest ih =>
    simp only [List.filter_cons, segCounts_cons, List.countP_append, List.countP_replicate,
      CountMatcher.matchesSeg_eq]
    split <;> simp_all [CountMatcher.matchesSeg_eq]

theorem Subset.len_spec (s : Subset) : s.len = s.counts.length := by
  rw [Subset.len, Subset.count_spec]
  simp [CountMatcher.matchesCount]

theorem Subset.lenAfterDelete_spec (s : Subset) : s.lenAfterDelete = zeros s.counts := by
  rw [Subset.lenAfterDelete, Subset.count_spec]; rfl

theorem Subset.isEmpty_spec (s : Subset) (h : s.Normal) :
    s.isEmpty = true ↔ ∀ c ∈ s.counts, c = 0 := by
  rcases s with ⟨_ | ⟨a, _ | ⟨b, rest⟩⟩⟩
  · simp [Subset.isEmpty, Subset.counts]
  · have : 0 < a.len := h
    simp [Subset.isEmpty, Subset.counts]; omega
  · have h1 := h.1
    have h2 := h.2.1
    have h3 := h.tail.head
    simp only [Subset.isEmpty, Subset.counts, segCounts_cons, List.mem_append, List.mem_replicate]
    constructor
    · simp
    · intro hh
      have e1 := hh a.count (Or.inl ⟨by omega, rfl⟩)
      have e2 := hh b.count (Or.inr (Or.inl ⟨by omega, rfl⟩))
      omega

/-! ### zip -/

def ZipSegment.denote (z : ZipSegment) : List (Nat × Nat) := List.replicate z.len (z.aCount, z.bCount)

theorem zip_replicate {α β : Type} (n) (a : α) (b : β) (xs ys) :
    (List.replicate n a ++ xs).zip (List.replicate n b ++ ys) =
      List.replicate n (a, b) ++ xs.zip ys := by
  rw [List.zip_append (by simp)]; simp

theorem zipGo_spec : ∀ (fuel : Nat) (as bs : List Segment) (ac bc c : Nat)
    (_ : as.length + bs.length ≤ fuel)
    (_ : ∀ s ∈ as, 0 < s.len) (_ : ∀ s ∈ bs, 0 < s.len)
    (_ : ac ≤ c) (_ : bc ≤ c)
    (_ : ∀ a ∈ as.head?, c < ac + a.len) (_ : ∀ b ∈ bs.head?, c < bc + b.len)
    (_ : as = [] → ac = c) (_ : bs = [] → bc = c)
    (_ : (segCounts as).length + ac = (segCounts bs).length + bc),
    ∃ zs, Subset.zipGo fuel as bs ac bc c = some zs ∧ (∀ z ∈ zs, 0 < z.len) ∧
      zs.flatMap ZipSegment.denote =
        ((segCounts as).drop (c - ac)).zip ((segCounts bs).drop (c - bc)) := by
  intro fuel
  induction fuel with
  | zero =>
    intro as bs ac bc c hf
    have : as = [] := by cases as <;> simp_all
    have : bs = [] := by cases bs <;> simp_all
    subst_vars
    intros
    exact ⟨[], rfl, by simp, by simp⟩
  | succ fuel ih =>
    intro as bs ac bc c hf ha hb hac hbc ha1 hb1 ha0 hb0 hlen
    match as, bs with
    | [], [] => exact ⟨[], rfl, by simp, by simp⟩
    | [], b :: bs =>
      have := ha0 rfl; have := hb b (by simp); have := hb1 b (by simp)
      simp at hlen; omega
    | a :: as, [] =>
      have := hb0 rfl; have := ha a (by simp); have := ha1 a (by simp)
      simp at hlen; omega
    | a :: as, b :: bs =>
      have ha1 := ha1 a (by simp)
      have hb1 := hb1 b (by simp)
      have pa := ha a (by simp)
      have pb := hb b (by simp)
      have da : ∀ n, n ≤ a.len - (c - ac) → (segCounts (a :: as)).drop (c - ac) =
          List.replicate n a.count ++ (segCounts (a :: as)).drop (c + n - ac) := by
        intro n hn
        simp only [segCounts_cons]
        rw [List.drop_append_of_le_length (by simp; omega),
          List.drop_append_of_le_length (by simp; omega), ← List.append_assoc]
        simp only [List.drop_replicate, List.replicate_append_replicate]
        congr 2; omega
      have db : ∀ n, n ≤ b.len - (c - bc) → (segCounts (b :: bs)).drop (c - bc) =
          List.replicate n b.count ++ (segCounts (b :: bs)).drop (c + n - bc) := by
        intro n hn
        simp only [segCounts_cons]
        rw [List.drop_append_of_le_length (by simp; omega),
          List.drop_append_of_le_length (by simp; omega), ← List.append_assoc]
        simp only [List.drop_replicate, List.replicate_append_replicate]
        congr 2; omega
      have da' : ∀ k, (segCounts (a :: as)).drop (a.len + k) = (segCounts as).drop k := by
        intro k; simp [segCounts_cons, List.drop_append]
      have db' : ∀ k, (segCounts (b :: bs)).drop (b.len + k) = (segCounts bs).drop k := by
        intro k; simp [segCounts_cons, List.drop_append]
      have ha' : ∀ s ∈ as, 0 < s.len := fun s hs => ha s (by simp [hs])
      have hb' : ∀ s ∈ bs, 0 < s.len := fun s hs => hb s (by simp [hs])
      simp only [Subset.zipGo]
      simp only [segCounts_cons, List.length_append, List.length_replicate] at hlen
      simp only [List.length_cons] at hf
      split
      · rename_i heq
        obtain ⟨zs, h1, h2, h3⟩ := ih as bs (ac + a.len) (bc + b.len) (c + (ac + a.len - c))
          (by omega) ha' hb' (by omega) (by omega)
          (fun s hs => by have := ha' s (List.mem_of_mem_head? hs); omega)
          (fun s hs => by have := hb' s (List.mem_of_mem_head? hs); omega)
          (by intros; omega) (by intros; omega) (by omega)
        refine ⟨_, by simp only [h1]; rfl, ?_, ?_⟩
        · intro z hz
          rcases List.mem_cons.1 hz with rfl | hz
          · simp; omega
          · exact h2 z hz
        · rw [List.flatMap_cons, h3, da (ac + a.len - c) (by omega), db (ac + a.len - c) (by omega),
            zip_replicate]
          have e1 : c + (ac + a.len - c) - ac = a.len + 0 := by omega
          have e2 : c + (ac + a.len - c) - bc = b.len + 0 := by omega
          rw [e1, e2, da', db']
          have e3 : c + (ac + a.len - c) - (ac + a.len) = 0 := by omega
          have e4 : c + (ac + a.len - c) - (bc + b.len) = 0 := by omega
          rw [e3, e4]; rfl
      · split
        · obtain ⟨zs, h1, h2, h3⟩ := ih as (b :: bs) (ac + a.len) bc (c + (ac + a.len - c))
            (by simp; omega) ha' hb (by omega) (by omega)
            (fun s hs => by have := ha' s (List.mem_of_mem_head? hs); omega)
            (fun s hs => by simp at hs; subst hs; omega)
            (by intros; omega) (by simp) (by simp; omega)
          refine ⟨_, by simp only [h1]; rfl, ?_, ?_⟩
          · intro z hz
            rcases List.mem_cons.1 hz with rfl | hz
            · simp; omega
            · exact h2 z hz
          · rw [List.flatMap_cons, h3, da (ac + a.len - c) (by omega), db (ac + a.len - c) (by omega),
              zip_replicate]
            have e1 : c + (ac + a.len - c) - ac = a.len + 0 := by omega
            rw [e1, da']
            have e3 : c + (ac + a.len - c) - (ac + a.len) = 0 := by omega
            rw [e3]; rfl
        · obtain ⟨zs, h1, h2, h3⟩ := ih (a :: as) bs ac (bc + b.len) (c + (bc + b.len - c))
            (by simp; omega) ha hb' (by omega) (by omega)
            (fun s hs => by simp at hs; subst hs; omega)
            (fun s hs => by have := hb' s (List.mem_of_mem_head? hs); omega)
            (by simp) (by intros; omega) (by simp; omega)
          refine ⟨_, by simp only [h1]; rfl, ?_, ?_⟩
          · intro z hz
            rcases List.mem_cons.1 hz with rfl | hz
            · simp; omega
            · exact h2 z hz
          · rw [List.flatMap_cons, h3, da (bc + b.len - c) (by omega), db (bc + b.len - c) (by omega),
              zip_replicate]
            have e1 : c + (bc + b.len - c) - bc = b.len + 0 := by omega
            rw [e1, db']
            have e3 : c + (bc + b.len - c) - (bc + b.len) = 0 := by omega
            rw [e3]; rfl

theorem Subset.zip_spec {a b : Subset} (ha : a.Normal) (hb : b.Normal)
    (hl : a.counts.length = b.counts.length) :
    ∃ zs, Subset.zip a b = some zs ∧ (∀ z ∈ zs, 0 < z.len) ∧
      zs.flatMap ZipSegment.denote = a.counts.zip b.counts := by
  have := zipGo_spec _ a.segments b.segments 0 0 0 (Nat.le_refl _) ha.pos hb.pos (by simp) (by simp)
    (fun s hs => by have := ha.pos s (List.mem_of_mem_head? hs); omega)
    (fun s hs => by have := hb.pos s (List.mem_of_mem_head? hs); omega)
    (by simp) (by simp) (by simpa [Subset.counts] using hl)
  simpa [Subset.counts, Subset.zip] using this

theorem flatMap_denote_map (zs : List ZipSegment) (f : Nat → Nat → Nat) :
    zs.flatMap (fun z => List.replicate z.len (f z.aCount z.bCount)) =
      (zs.flatMap ZipSegment.denote).map (fun p => f p.1 p.2) := by
  simp [List.map_flatMap, ZipSegment.denote]

theorem map_zip_eq_zipWith {α β γ : Type} (f : α → β → γ) (xs : List α) (ys : List β) :
    (xs.zip ys).map (fun p => f p.1 p.2) = List.zipWith f xs ys := by
  rw [List.zip, List.map_zipWith]

theorem Subset.union_spec {a b : Subset} (ha : a.Normal) (hb : b.Normal)
    (hl : a.counts.length = b.counts.length) :
    ∃ r, a.union b = some r ∧ r.Normal ∧ r.counts = List.zipWith (fun x y => x + y) a.counts b.counts := by
  obtain ⟨zs, h1, h2, h3⟩ := Subset.zip_spec ha hb hl
  obtain ⟨sb, h4, h5⟩ := SubsetBuilder.foldlM_push
    (fun (sb : SubsetBuilder) (z : ZipSegment) => sb.pushSegment z.len (z.aCount + z.bCount))
    (fun z => List.replicate z.len (z.aCount + z.bCount)) zs
    (fun sb cs z hz h => h.push (h2 z hz) _) _ _ SubsetBuilder.ok_new
  refine ⟨sb.build, by simp [Subset.union, h1, h4], h5.normal, ?_⟩
  have := h5.counts
  rw [List.nil_append, flatMap_denote_map zs (· + ·), h3, map_zip_eq_zipWith] at this
  exact this

theorem Subset.bitxor_spec {a b : Subset} (ha : a.Normal) (hb : b.Normal)
    (hl : a.counts.length = b.counts.length) :
    ∃ r, a.bitxor b = some r ∧ r.Normal ∧ r.counts = List.zipWith (· ^^^ ·) a.counts b.counts := by
  obtain ⟨zs, h1, h2, h3⟩ := Subset.zip_spec ha hb hl
  obtain ⟨sb, h4, h5⟩ := SubsetBuilder.foldlM_push
    (fun (sb : SubsetBuilder) (z : ZipSegment) => sb.pushSegment z.len (z.aCount ^^^ z.bCount))
    (fun z => List.replicate z.len (z.aCount ^^^ z.bCount)) zs
    (fun sb cs z hz h => h.push (h2 z hz) _) _ _ SubsetBuilder.ok_new
  refine ⟨sb.build, by simp [Subset.bitxor, h1, h4], h5.normal, ?_⟩
  have := h5.counts
  rw [List.nil_append, flatMap_denote_map zs (· ^^^ ·), h3, map_zip_eq_zipWith] at this
  exact this

theorem Subset.subtract_spec {a b : Subset} (ha : a.Normal) (hb : b.Normal)
    (hl : a.counts.length = b.counts.length)
    (hle : ∀ p ∈ a.counts.zip b.counts, p.2 ≤ p.1) :
    ∃ r, a.subtract b = some r ∧ r.Normal ∧ r.counts = List.zipWith (· - ·) a.counts b.counts := by
  obtain ⟨zs, h1, h2, h3⟩ := Subset.zip_spec ha hb hl
  have hz : ∀ z ∈ zs, z.bCount ≤ z.aCount := by
    intro z hz
    have : (z.aCount, z.bCount) ∈ a.counts.zip b.counts := by
      rw [← h3, List.mem_flatMap]
      exact ⟨z, hz, by simp [ZipSegment.denote]; have := h2 z hz; omega⟩
    exact hle _ this
  obtain ⟨sb, h4, h5⟩ := SubsetBuilder.foldlM_push
    (fun (sb : SubsetBuilder) (z : ZipSegment) =>
      if z.aCount ≥ z.bCount then sb.pushSegment z.len (z.aCount - z.bCount) else none)
    (fun z => List.replicate z.len (z.aCount - z.bCount)) zs
    (fun sb cs z hz' h => by simpa [hz z hz'] using h.push (h2 z hz') _) _ _ SubsetBuilder.ok_new
  refine ⟨sb.build, by simp [Subset.subtract, h1, h4], h5.normal, ?_⟩
  have := h5.counts
  rw [List.nil_append, flatMap_denote_map zs (· - ·), h3, map_zip_eq_zipWith] at this
  exact this

theorem keep_eq_filter_zip {α : Type} (cs : List Nat) (xs : List α) (f : α × Nat → α)
    (hf : ∀ p, f p = p.1) :
    keep cs xs = ((xs.zip cs).filter (fun p => p.2 == 0)).map f := by
  induction cs generalizing xs with
  | nil => simp
  | cons c cs ih => cases xs with
    | nil => simp
    | cons x xs => cases c <;> simp [ih, hf]

theorem Subset.transformShrink_spec {a b : Subset} (ha : a.Normal) (hb : b.Normal)
    (hl : a.counts.length = b.counts.length) :
    ∃ r, a.transformShrink b = some r ∧ r.Normal ∧ r.counts = keep b.counts a.counts := by
  obtain ⟨zs, h1, h2, h3⟩ := Subset.zip_spec ha hb hl
  obtain ⟨sb, h4, h5⟩ := SubsetBuilder.foldlM_push
    (fun (sb : SubsetBuilder) (z : ZipSegment) =>
      if z.bCount = 0 then sb.pushSegment z.len z.aCount else some sb)
    (fun z => if z.bCount = 0 then List.replicate z.len z.aCount else []) zs
    (fun sb cs z hz h => by
      by_cases h0 : z.bCount = 0
      · simpa [h0] using h.push (h2 z hz) _
      · exact ⟨sb, by simp [h0], by simpa [h0] using h⟩) _ _ SubsetBuilder.ok_new
  refine ⟨sb.build, by simp [Subset.transformShrink, h1, h4], h5.normal, ?_⟩
  have := h5.counts
  rw [keep_eq_filter_zip _ _ Prod.fst (fun _ => rfl), ← h3]
  simp only [List.nil_append] at this
  rw [Subset.counts, SubsetBuilder.build, this]
  clear this h5 h4 sb h3 h2 h1
  induction zs with
  | nil => rfl
  | cons z zs ih =>
    simp only [List.flatMap_cons, List.filter_append, List.map_append, ih]
    congr 1
    by_cases h : z.bCount = 0 <;> simp [ZipSegment.denote, h, List.filter_replicate]

theorem flipMask_replicate (n c : Nat) :
    flipMask (List.replicate n c) = List.replicate n (if c = 0 then 1 else 0) := by
  simp [flipMask]

theorem Subset.complement_spec {a : Subset} (ha : a.Normal) :
    ∃ r, a.complement = some r ∧ r.Normal ∧ r.counts = flipMask a.counts := by
  obtain ⟨sb, h4, h5⟩ := SubsetBuilder.foldlM_push
    (fun (sb : SubsetBuilder) (seg : Segment) =>
      if seg.count = 0 then sb.pushSegment seg.len 1 else sb.pushSegment seg.len 0)
    (fun z => List.replicate z.len (if z.count = 0 then 1 else 0)) a.segments
    (fun sb cs z hz h => by
      by_cases h0 : z.count = 0
      · simpa [h0] using h.push (ha.pos z hz) _
      · simpa [h0] using h.push (ha.pos z hz) _) _ _ SubsetBuilder.ok_new
  refine ⟨sb.build, by simp [Subset.complement, h4], h5.normal, ?_⟩
  have := h5.counts
  simp only [List.nil_append] at this
  rw [Subset.counts, SubsetBuilder.build, this, Subset.counts]
  generalize a.segments = segs
  induction segs with
  | nil => rfl
  | cons s rest ih => simp [ih, flipMask_replicate]

/-! ### transform -/

theorem expandMask_append_zeros (n : Nat) (o cs : List Nat) (h : n ≤ cs.length) :
    expandMask (List.replicate n 0 ++ o) cs = cs.take n ++ expandMask o (cs.drop n) := by
  induction n generalizing cs with
  | zero => simp
  | succ n ih =>
    cases cs with
    | nil => simp at h
    | cons c cs => simp [List.replicate_succ]; exact ih cs (by simpa using h)

theorem expandMask_append_ne {c : Nat} (hc : c ≠ 0) (n : Nat) (o cs : List Nat) :
    expandMask (List.replicate n c ++ o) cs = List.replicate n 0 ++ expandMask o cs := by
  obtain ⟨c, rfl⟩ : ∃ k, c = k + 1 := ⟨c - 1, by omega⟩
  induction n with
  | zero => simp
  | succ n ih => simp [List.replicate_succ, ih]

/-- What is left to consume in a `transform` state. -/
def TState.rest (st : Subset.TState) : List Nat :=
  List.replicate st.cur.len st.cur.count ++ segCounts st.segs

theorem run_take (n c need : Nat) (rest : List Nat) :
    (List.replicate n c ++ rest).take need = List.replicate (min n need) c ++
      (List.replicate (n - min n need) c ++ rest).take (need - min n need) := by
  by_cases h : n ≤ need
  · simp [Nat.min_eq_left h, List.take_append, List.take_of_length_le, h]
  · have e : min n need = need := by omega
    have : need - n = 0 := by omega
    simp [e, List.take_append, this]; omega

theorem run_drop (n c need : Nat) (rest : List Nat) :
    (List.replicate n c ++ rest).drop need =
      (List.replicate (n - min n need) c ++ rest).drop (need - min n need) := by
  by_cases h : n ≤ need
  · simp [Nat.min_eq_left h, List.drop_append, h]
  · have e : min n need = need := by omega
    have : need - n = 0 := by omega
    simp [e, List.drop_append, this]

theorem consume_spec : ∀ (fuel : Nat) (sb : SubsetBuilder) (cs : List Nat) (segs : List Segment)
    (cur : Segment) (need : Nat), sb.Ok cs → (∀ s ∈ segs, 0 < s.len) →
    need ≤ cur.len + (segCounts segs).length →
    (0 < need → segs.length + (if cur.len = 0 then 1 else 2) ≤ fuel) →
    0 < fuel →
    ∃ st, Subset.consume fuel sb segs cur need = some st ∧ (∀ s ∈ st.segs, 0 < s.len) ∧
      st.sb.Ok (cs ++ (List.replicate cur.len cur.count ++ segCounts segs).take need) ∧
      TState.rest st = (List.replicate cur.len cur.count ++ segCounts segs).drop need := by
  intro fuel
  induction fuel with
  | zero => intros; omega
  | succ fuel ih =>
    intro sb cs segs cur need hsb hpos hneed hfuel _
    unfold Subset.consume
    by_cases hn : need = 0
    · subst hn
      exact ⟨_, rfl, hpos, by simpa using hsb, by simp [TState.rest]⟩
    · rw [if_neg hn]
      have hfuel := hfuel (by omega)
      by_cases hc : cur.len = 0
      · rw [if_pos hc] at hfuel ⊢
        cases segs with
        | nil => simp [hc] at hneed; omega
        | cons s rest =>
          have hs := hpos s (by simp)
          obtain ⟨sb1, h1, h2⟩ := hsb.push (len := min s.len need) (by omega) s.count
          simp only [segCounts_cons, List.length_append, List.length_replicate, hc] at hneed
          simp only [List.length_cons] at hfuel
          obtain ⟨st, h3, h4, h5, h6⟩ := ih sb1 _ rest ⟨s.len - min s.len need, s.count⟩
            (need - min s.len need) h2 (fun t ht => hpos t (by simp [ht])) (by simp only; omega)
            (by intro hpos'; rw [if_pos (by simp only; omega)]; omega) (by omega)
          refine ⟨st, by simpa [h1] using h3, h4, ?_, ?_⟩
          · rw [hc, segCounts_cons, List.replicate_zero, List.nil_append, run_take,
              ← List.append_assoc]
            exact h5
          · rw [hc, segCounts_cons, List.replicate_zero, List.nil_append, run_drop]
            exact h6
      · rw [if_neg hc] at hfuel ⊢
        obtain ⟨sb1, h1, h2⟩ := hsb.push (len := min cur.len need) (by omega) cur.count
        obtain ⟨st, h3, h4, h5, h6⟩ := ih sb1 _ segs ⟨cur.len - min cur.len need, cur.count⟩
          (need - min cur.len need) h2 hpos (by simp only; omega)
          (by intro hpos'; rw [if_pos (by simp only; omega)]; omega) (by omega)
        refine ⟨st, by simpa [h1] using h3, h4, ?_, ?_⟩
        · rw [run_take, ← List.append_assoc]
          exact h5
        · rw [run_drop]
          exact h6

/-- Like `expandMask`, but marked positions keep the count of `o`. -/
def unionMask : List Nat → List Nat → List Nat
  | [], _ => []
  | 0 :: o, c :: cs => c :: unionMask o cs
  | 0 :: o, [] => 0 :: unionMask o []
  | (n + 1) :: o, cs => (n + 1) :: unionMask o cs

@[simp] theorem unionMask_nil (cs) : unionMask [] cs = [] := rfl
@[simp] theorem unionMask_zero_cons (o c cs) : unionMask (0 :: o) (c :: cs) = c :: unionMask o cs := rfl
@[simp] theorem unionMask_zero_nil (o) : unionMask (0 :: o) [] = 0 :: unionMask o [] := rfl
@[simp] theorem unionMask_succ (n o cs) :
    unionMask ((n+1) :: o) cs = (n + 1) :: unionMask o cs := by cases cs <;> rfl

theorem unionMask_append_zeros (n : Nat) (o cs : List Nat) (h : n ≤ cs.length) :
    unionMask (List.replicate n 0 ++ o) cs = cs.take n ++ unionMask o (cs.drop n) := by
  induction n generalizing cs with
  | zero => simp
  | succ n ih =>
    cases cs with
    | nil => simp at h
    | cons c cs => simp [List.replicate_succ]; exact ih cs (by simpa using h)

theorem unionMask_append_ne {c : Nat} (hc : c ≠ 0) (n : Nat) (o cs : List Nat) :
    unionMask (List.replicate n c ++ o) cs = List.replicate n c ++ unionMask o cs := by
  obtain ⟨c, rfl⟩ : ∃ k, c = k + 1 := ⟨c - 1, by omega⟩
  induction n with
  | zero => simp
  | succ n ih => simp [List.replicate_succ, ih]

/-- The count list that `transform` computes. -/
def transformMask (union : Bool) (o cs : List Nat) : List Nat :=
  if union then unionMask o cs else expandMask o cs

theorem transformFold_spec (union : Bool) : ∀ (os : List Segment) (st : Subset.TState) (cs : List Nat),
    (∀ s ∈ os, 0 < s.len) → st.sb.Ok cs → (∀ s ∈ st.segs, 0 < s.len) →
    zeros (segCounts os) ≤ (TState.rest st).length →
    ∃ st', os.foldlM (Subset.transformStep union) st = some st' ∧
      st'.sb.Ok (cs ++ transformMask union (segCounts os) (TState.rest st)) ∧
      (∀ s ∈ st'.segs, 0 < s.len) ∧
      TState.rest st' = (TState.rest st).drop (zeros (segCounts os)) := by
  intro os
  induction os with
  | nil =>
    intro st cs _ h1 h2 _
    refine ⟨st, rfl, ?_, h2, by simp⟩
    cases union <;> simpa [transformMask] using h1
  | cons o os ih =>
    intro st cs hos h1 h2 h3
    have ho := hos o (by simp)
    have hos' : ∀ s ∈ os, 0 < s.len := fun s hs => hos s (by simp [hs])
    simp only [segCounts_cons, zeros_append] at h3
    simp only [List.foldlM_cons, Subset.transformStep]
    by_cases hc : o.count = 0
    · rw [if_neg (by omega)]
      rw [hc, zeros_replicate_zero] at h3
      have hrl : (TState.rest st).length = st.cur.len + (segCounts st.segs).length := by
        simp [TState.rest]
      obtain ⟨st1, g1, g2, g3, g4⟩ := consume_spec (st.segs.length + 2) st.sb cs st.segs st.cur o.len
        h1 h2 (by omega) (by intro; split <;> omega) (by omega)
      obtain ⟨st2, k1, k2, k3, k4⟩ := ih st1 _ hos' g3 g2 (by rw [g4, List.length_drop]; simp only [TState.rest] at h3; omega)
      refine ⟨st2, by simp [g1, k1], ?_, k3, ?_⟩
      · rw [g4] at k2
        have hle : o.len ≤ (TState.rest st).length := by omega
        have : transformMask union (segCounts (o :: os)) (TState.rest st) =
            (TState.rest st).take o.len ++
              transformMask union (segCounts os) ((TState.rest st).drop o.len) := by
          cases union <;> simp [transformMask, hc, unionMask_append_zeros, expandMask_append_zeros, hle]
        rw [this, ← List.append_assoc]
        exact k2
      · rw [k4, g4, List.drop_drop]
        simp [hc, TState.rest]
    · rw [if_pos (by omega)]
      rw [zeros_replicate_ne hc] at h3
      obtain ⟨sb1, g1, g2⟩ := h1.push ho (if union then o.count else 0)
      obtain ⟨st2, k1, k2, k3, k4⟩ := ih { st with sb := sb1 } _ hos' g2 h2
        (by simpa [TState.rest] using h3)
      refine ⟨st2, by simpa [g1] using k1, ?_, k3, ?_⟩
      · have : transformMask union (segCounts (o :: os)) (TState.rest st) =
            List.replicate o.len (if union then o.count else 0) ++
              transformMask union (segCounts os) (TState.rest st) := by
          cases union <;> simp [transformMask, unionMask_append_ne hc, expandMask_append_ne hc]
        rw [this, ← List.append_assoc]
        exact k2
      · rw [k4]
        simp [zeros_replicate_ne hc, TState.rest]

theorem Subset.transform_spec {a b : Subset} (ha : a.Normal) (hb : b.Normal)
    (hl : a.counts.length = zeros b.counts) (union : Bool) :
    ∃ r, a.transform b union = some r ∧ r.Normal ∧
      r.counts = transformMask union b.counts a.counts := by
  have hr : TState.rest ⟨SubsetBuilder.new, a.segments, ⟨0, 0⟩⟩ = a.counts := by
    simp [TState.rest, Subset.counts]
  obtain ⟨st, h1, h2, h3, h4⟩ := transformFold_spec union b.segments
    ⟨SubsetBuilder.new, a.segments, ⟨0, 0⟩⟩ [] hb.pos SubsetBuilder.ok_new ha.pos
    (by rw [hr, hl]; exact Nat.le_refl _)
  rw [hr] at h2 h4
  have h5 : TState.rest st = [] := by
    rw [h4, List.drop_eq_nil_iff, hl]; exact Nat.le_refl _
  simp only [TState.rest, List.append_eq_nil_iff, List.replicate_eq_nil_iff] at h5
  have h6 : st.segs = [] := by
    cases hs : st.segs with
    | nil => rfl
    | cons s rest =>
      have := h3 s (by simp [hs])
      have h7 := h5.2
      rw [hs] at h7
      simp at h7; omega
  refine ⟨st.sb.build, ?_, h2.normal, ?_⟩
  · simp only [Subset.transform, h1]
    simp [h5.1, h6]
  · exact h2.counts

theorem Subset.transformExpand_spec {a b : Subset} (ha : a.Normal) (hb : b.Normal)
    (hl : a.counts.length = zeros b.counts) :
    ∃ r, a.transformExpand b = some r ∧ r.Normal ∧ r.counts = expandMask b.counts a.counts :=
  Subset.transform_spec ha hb hl false

theorem Subset.transformUnion_spec {a b : Subset} (ha : a.Normal) (hb : b.Normal)
    (hl : a.counts.length = zeros b.counts) :
    ∃ r, a.transformUnion b = some r ∧ r.Normal ∧ r.counts = unionMask b.counts a.counts :=
  Subset.transform_spec ha hb hl true

/-! ### delete_from -/

theorem slice_spec {α : Type} (s : List α) {b e : Nat} (h1 : b ≤ e) (h2 : e ≤ s.length) :
    slice s b e = some ((s.take e).drop b) := by simp [slice, h1, h2]

theorem slice_append {α : Type} (p q r : List α) :
    slice (p ++ q ++ r) p.length (p.length + q.length) = some q := by
  rw [slice_spec _ (by omega) (by simp)]
  simp [List.take_append, List.drop_append, List.append_assoc]

theorem deleteGo_spec {α : Type} : ∀ (segs : List Segment) (p q acc : List α),
    (segCounts segs).length = q.length →
    (Subset.rangeGo .zero segs p.length).foldlM
      (fun acc r => do return acc ++ (← slice (p ++ q) r.1 r.2)) acc =
      some (acc ++ keep (segCounts segs) q) := by
  intro segs
  induction segs with
  | nil => intro p q acc h; simp [Subset.rangeGo]
  | cons s rest ih =>
    intro p q acc h
    simp only [segCounts_cons, List.length_append, List.length_replicate] at h
    have hq : q = q.take s.len ++ q.drop s.len := by simp
    have hl : (q.take s.len).length = s.len := by simp; omega
    have ih' := fun acc => ih (p ++ q.take s.len) (q.drop s.len) acc (by simp; omega)
    simp only [List.append_assoc, List.take_append_drop, List.length_append, hl] at ih'
    simp only [Subset.rangeGo, CountMatcher.matchesSeg, beq_iff_eq]
    by_cases hc : s.count = 0
    · rw [if_pos hc, List.foldlM_cons]
      have e : slice (p ++ q) (p.length + s.len - s.len) (p.length + s.len) = some (q.take s.len) := by
        have := slice_append p (q.take s.len) (q.drop s.len)
        rw [hl] at this
        rw [Nat.add_sub_cancel, ← this]
        simp
      rw [e]
      show List.foldlM _ (acc ++ q.take s.len) _ = _
      rw [ih']
      congr 1
      rw [List.append_assoc]
      congr 1
      conv => rhs; rw [hq, segCounts_cons, keep_append _ _ _ _ (by simp [hl])]
      rw [hc, keep_zeros_of_length _ _ hl.symm]
    · rw [if_neg hc, ih']
      congr 2
      conv => rhs; rw [hq, segCounts_cons, keep_append _ _ _ _ (by simp [hl])]
      rw [keep_replicate_ne hc, List.nil_append]

theorem Subset.deleteFrom_spec {α : Type} (s : Subset) (text : List α)
    (h : s.counts.length = text.length) : s.deleteFrom text = some (keep s.counts text) := by
  have := deleteGo_spec s.segments [] text [] h
  simpa [Subset.deleteFrom, Subset.rangeIter, Subset.counts] using this

end Xi
