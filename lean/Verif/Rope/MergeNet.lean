import Verif.Rope.MergeReach

/-!
# Any number of replicas

The document has the edits of all replicas.  The order of two concurrent insertions is the same whatever other edits, concurrent or not, are known (`Net.cells`).
-/

namespace Xi

variable {α β : Type}

open Chr

/-! ### Adding and taking out characters between others -/

theorem NoAdj.of_filter {p q f : β → Bool} : ∀ {l : List β}, NoAdj p q (l.filter f) → (∀ x ∈ l, p x = true → f x = true) → (∀ x ∈ l, q x = true → f x = true) →
    NoAdj p q l := by
  intro l
  induction l with
  | nil => intros; trivial
  | cons x l ih =>
    intro h hp hq
    have ht : NoAdj p q l := by
      refine ih ?_ (fun z hz => hp z (by simp [hz])) (fun z hz => hq z (by simp [hz]))
      rw [List.filter_cons] at h
      split at h
      · exact h.tail
      · exact h
    cases l with
    | nil => trivial
    | cons y v =>
      refine ⟨?_, ht⟩
      rintro ⟨h1, h2⟩
      rw [List.filter_cons, if_pos (hp x (by simp) h1), List.filter_cons, if_pos (hq y (by simp) h2)] at h
      exact h.1 ⟨h1, h2⟩

theorem NoAdj.cons_of {p q : β → Bool} {x : β} {l : List β} (h : NoAdj p q l) (hx : p x = true → ∀ y ∈ l.head?, q y = false) : NoAdj p q (x :: l) := by
  cases l with
  | nil => trivial
  | cons y v =>
    refine ⟨?_, h⟩
    rintro ⟨h1, h2⟩
    rw [hx h1 y (by simp)] at h2
    cases h2

theorem NoAdj.filter_not {p q b : β → Bool} : ∀ {l : List β}, NoAdj p q l → NoAdj p b l ∨ NoAdj b q l → NoAdj p q (l.filter (fun x => !b x)) := by
  intro l
  induction l with
  | nil => intros; trivial
  | cons x l ih =>
    intro h hb
    have ih := ih h.tail (hb.imp NoAdj.tail NoAdj.tail)
    by_cases hx : b x = true
    · rw [List.filter_cons, if_neg (by simp [hx])]; exact ih
    · rw [List.filter_cons, if_pos (by simpa using hx)]
      refine ih.cons_of fun hpx => ?_
      cases l with
      | nil => simp
      | cons y v =>
        by_cases hy : b y = true
        · rw [List.filter_cons, if_neg (by simp [hy])]
          rcases hb with hb | hb
          · exact absurd ⟨hpx, hy⟩ hb.1
          · exact hb.tail.head hy
        · rw [List.filter_cons, if_pos (by simpa using hy)]
          intro z hz
          simp only [List.head?_cons, Option.mem_def, Option.some.injEq] at hz
          subst hz
          have := h.1
          simpa [hpx] using this

theorem Ord.of_filter {p q f : β → Bool} {after : Bool} {l : List β} (h : Ord p q after (l.filter f)) (hp : ∀ x ∈ l, p x = true → f x = true)
    (hq : ∀ x ∈ l, q x = true → f x = true) : Ord p q after l := by
  unfold Ord at h ⊢
  cases after
  · exact NoAdj.of_filter (by simpa using h) hp hq
  · exact NoAdj.of_filter (by simpa using h) hq hp

/-- The order of `p` and `q` does not depend on the `b` between them, if the three orders fit together. -/
theorem Ord.filter_not {p q b : β → Bool} {a a1 a2 : Bool} {l : List β} (h : Ord p q a l) (h1 : Ord p b a1 l) (h2 : Ord b q a2 l)
    (ht : a = true → a1 = true ∨ a2 = true) (hf : a = false → a1 = false ∨ a2 = false) : Ord p q a (l.filter (fun x => !b x)) := by
  unfold Ord at *
  cases a with
  | true =>
    refine NoAdj.filter_not (by simpa using h) ?_
    rcases ht rfl with rfl | rfl
    · exact Or.inr (by simpa using h1)
    · exact Or.inl (by simpa using h2)
  | false =>
    refine NoAdj.filter_not (by simpa using h) ?_
    rcases hf rfl with rfl | rfl
    · exact Or.inl (by simpa using h1)
    · exact Or.inr (by simpa using h2)

/-! ### Priorities -/

theorem FullPriority.ge_trans {a b c : FullPriority} (h1 : a.ge b = true) (h2 : b.ge c = true) : a.ge c = true := by
  unfold FullPriority.ge at *
  simp at *
  grind

theorem FullPriority.ge_total {a b : FullPriority} (h : a.ge b = false) : b.ge a = true := by
  unfold FullPriority.ge at *
  simp at *
  grind

/-- The orders of three concurrent insertions fit together. -/
theorem FullPriority.fit {n b z : FullPriority} (hs : n.session ≠ z.session) :
    (z.ge n = true → b.ge n = true ∨ z.ge b = true) ∧ (z.ge n = false → b.ge n = false ∨ z.ge b = false) := by
  refine ⟨fun h => ?_, fun h => ?_⟩
  · cases h1 : b.ge n with
    | true => exact Or.inl rfl
    | false =>
      cases h2 : z.ge b with
      | true => exact Or.inr rfl
      | false =>
        have := FullPriority.ge_trans (FullPriority.ge_total h1) (FullPriority.ge_total h2)
        rw [FullPriority.ge_swap hs, h] at this
        cases this
  · cases h1 : b.ge n with
    | false => exact Or.inl rfl
    | true =>
      cases h2 : z.ge b with
      | false => exact Or.inr rfl
      | true => rw [FullPriority.ge_trans h2 h1] at h; cases h

/-! ### Histories -/

/-- With an edit, all edits it was made on top of. -/
def Down (past : RevId → List RevId) (S : List RevId) : Prop := ∀ x ∈ S, ∀ y ∈ past x, y ∈ S

theorem unionAt_drop {l : List (Chr α)} {S T : List RevId} {z : RevId} (hz : z ∉ S) (hT : ∀ x, x ∈ T ↔ x ∈ S ∨ x = z) :
    (unionAt l T).filter (fun c => !c.insertedBy z) = unionAt l S := by
  rw [unionAt_congr (T := S ++ [z]) (by intro x; rw [hT]; simp)]
  rw [← unionAt_diff (S := S) (g := [z]) (by intro x hx; simp only [List.mem_singleton] at hx; rw [hx]; exact hz)]
  apply List.filter_congr
  intro c _
  simp [insIn]

theorem split_filter {f : RevId → Bool} : ∀ {l B1 B2 : List RevId} {x : RevId}, l.filter f = B1 ++ x :: B2 →
    ∃ A1 A2, l = A1 ++ x :: A2 ∧ A1.filter f = B1 ∧ A2.filter f = B2 := by
  intro l
  induction l with
  | nil => intro B1 B2 x h; simp at h
  | cons y l ih =>
    intro B1 B2 x h
    rw [List.filter_cons] at h
    by_cases hy : f y = true
    · rw [if_pos hy] at h
      cases B1 with
      | nil =>
        simp only [List.nil_append, List.cons.injEq] at h
        obtain ⟨rfl, h⟩ := h
        exact ⟨[], l, rfl, rfl, h⟩
      | cons b B1 =>
        simp only [List.cons_append, List.cons.injEq] at h
        obtain ⟨rfl, h⟩ := h
        obtain ⟨A1, A2, h1, h2, h3⟩ := ih h
        exact ⟨y :: A1, A2, by rw [h1]; rfl, by rw [List.filter_cons, if_pos hy, h2], h3⟩
    · rw [if_neg hy] at h
      obtain ⟨A1, A2, h1, h2, h3⟩ := ih h
      exact ⟨y :: A1, A2, by rw [h1]; rfl, by rw [List.filter_cons, if_neg hy, h2], h3⟩

/-- The concurrent edits `B` and a new one, `n`: if the order of `n` and each of `B` is right where the edits of `B` before it are known, it is right where any others are. -/
theorem order_any {Z : List (Chr α)} {past : RevId → List RevId} {pr : RevId → Nat} {K B : List RevId} {n : RevId} (hnK : n ∉ K) (hnB : n ∉ B)
    (hBK : ∀ x ∈ B, x ∉ K) (hBn : B.Nodup) (hK : Down past K) (hB : ∀ B1 x B2, B = B1 ++ x :: B2 → ∀ y ∈ past x, y ∈ K ++ B1)
    (hses : ∀ x ∈ B, n.sessionId ≠ x.sessionId)
    (hcells : ∀ S x y, Down past S → (∀ z ∈ K, z ∈ S) → (∀ z ∈ S, z ∈ K ++ B) → x ∈ B → y ∈ B → x ∉ S → y ∉ S → x ≠ y → (∀ z ∈ past x, z ∈ S) →
      (∀ z ∈ past y, z ∈ S) → Ord (insertedBy x) (insertedBy y) ((fullPrio pr y).ge (fullPrio pr x)) (unionAt Z (S ++ [x, y])))
    (hcol : ∀ B1 b B2, B = B1 ++ b :: B2 → Ord (insertedBy n) (insertedBy b) ((fullPrio pr b).ge (fullPrio pr n)) (unionAt Z (K ++ B1 ++ [n, b]))) :
    ∀ (k : Nat) (C R : List RevId), C.length = k → B = C ++ R → ∀ (S : List RevId) (b : RevId), (∀ x ∈ K, x ∈ S) → (∀ x ∈ S, x ∈ K ++ C) → Down past S →
      b ∈ C → b ∉ S → (∀ y ∈ past b, y ∈ S) →
      Ord (insertedBy n) (insertedBy b) ((fullPrio pr b).ge (fullPrio pr n)) (unionAt Z (S ++ [n, b])) := by
  intro k
  induction k with
  | zero =>
    intro C R hk _ S b _ _ _ hb
    have : C = [] := by simpa using hk
    subst this
    simp at hb
  | succ k ih =>
    intro C R hk hCR S b hKS hSC hS hb hbS hpb
    rcases List.eq_nil_or_concat C with rfl | ⟨C', z, rfl⟩
    · simp at hk
    rw [List.concat_eq_append] at *
    have hCR' : B = C' ++ (z :: R) := by rw [hCR]; simp
    have hzB : z ∈ B := by rw [hCR']; simp
    have hzC' : z ∉ C' := by
      rw [hCR', List.nodup_append] at hBn
      intro hm; exact hBn.2.2 z hm z (by simp) rfl
    have hC'B : ∀ x ∈ C', x ∈ B := by intro x hx; rw [hCR']; simp [hx]
    have hzK := hBK z hzB
    -- nothing in `K ++ C'` is on top of `z`
    have hzp : ∀ x ∈ K ++ C', z ∉ past x := by
      intro x hx hm
      rw [List.mem_append] at hx
      rcases hx with hx | hx
      · exact hzK (hK x hx z hm)
      · obtain ⟨C1, C2, hs⟩ := List.append_of_mem hx
        have := hB C1 x (C2 ++ (z :: R)) (by rw [hCR', hs]; simp) z hm
        rw [List.mem_append] at this
        rcases this with h | h
        · exact hzK h
        · exact hzC' (by rw [hs]; simp [h])
    have ih := ih C' (z :: R) (by simpa using hk) hCR'
    have hnS : n ∉ S := by
      intro hm
      have := hSC n hm
      rw [← List.append_assoc, List.mem_append, List.mem_append] at this
      rcases this with (h | h) | h
      · exact hnK h
      · exact hnB (hC'B n h)
      · simp only [List.mem_singleton] at h; exact hnB (h ▸ hzB)
    by_cases hbz : b = z
    · subst hbz
      -- by the number of edits of `C'` that are not in `S`
      have key : ∀ (m : Nat) (S : List RevId), (C'.filter (fun x => !S.contains x)).length = m → (∀ x ∈ K, x ∈ S) → (∀ x ∈ S, x ∈ K ++ C') → Down past S →
          (∀ y ∈ past b, y ∈ S) → Ord (insertedBy n) (insertedBy b) ((fullPrio pr b).ge (fullPrio pr n)) (unionAt Z (S ++ [n, b])) := by
        intro m
        induction m with
        | zero =>
          intro S hm hKS hSC hS hpb
          rw [List.length_eq_zero_iff, List.filter_eq_nil_iff] at hm
          rw [unionAt_congr (T := K ++ C' ++ [n, b])]
          · exact hcol C' b R hCR'
          · intro x
            simp only [List.mem_append, List.mem_cons, List.not_mem_nil, or_false]
            refine ⟨?_, ?_⟩
            · rintro (h | h)
              · exact Or.inl (by simpa using hSC x h)
              · exact Or.inr h
            · rintro ((h | h) | h)
              · exact Or.inl (hKS x h)
              · exact Or.inl (by simpa using hm x h)
              · exact Or.inr h
        | succ m ihm =>
          intro S hm hKS hSC hS hpb
          obtain ⟨y, rest, hy⟩ : ∃ y rest, C'.filter (fun x => !S.contains x) = y :: rest := by
            cases hf : C'.filter (fun x => !S.contains x) with
            | nil => rw [hf] at hm; simp at hm
            | cons y rest => exact ⟨y, rest, rfl⟩
          obtain ⟨C1, C2, s1, s2, s3⟩ := split_filter (B1 := []) hy
          have hyC : y ∈ C' := by rw [s1]; simp
          have hyB := hC'B y hyC
          have hyS : y ∉ S := by
            have : y ∈ C'.filter (fun x => !S.contains x) := by rw [hy]; simp
            simpa using (List.mem_filter.1 this).2
          have hyb : y ≠ b := by rintro rfl; exact hzC' hyC
          have hyn : y ≠ n := by rintro rfl; exact hnB hyB
          have hbn : b ≠ n := by rintro rfl; exact hnB hzB
          have hbS : b ∉ S := by
            intro h
            have := hSC b h
            rw [List.mem_append] at this
            exact this.elim hzK hzC'
          have hnS : n ∉ S := by
            intro h
            have := hSC n h
            rw [List.mem_append] at this
            exact this.elim hnK (fun h => hnB (hC'B n h))
          have hpy : ∀ w ∈ past y, w ∈ S := by
            intro w hw
            have := hB C1 y (C2 ++ (b :: R)) (by rw [hCR', s1]; simp) w hw
            rw [List.mem_append] at this
            rcases this with h | h
            · exact hKS w h
            · rw [List.filter_eq_nil_iff] at s2
              simpa using s2 w h
          -- with `y`
          have o1 := ihm (S ++ [y]) (by
              have e : C'.filter (fun x => !(S ++ [y]).contains x) = rest := by
                rw [s1, List.filter_append, List.filter_cons]
                have n1 : C1.filter (fun x => !(S ++ [y]).contains x) = [] := by
                  rw [List.filter_eq_nil_iff] at s2 ⊢
                  intro x hx
                  have := s2 x hx
                  simp at this
                  simp [this]
                rw [n1, if_neg (by simp), List.nil_append, ← s3]
                apply List.filter_congr
                intro x hx
                have hxy : x ≠ y := by
                  rw [hCR', s1] at hBn
                  rintro rfl
                  simp only [List.nodup_append, List.nodup_cons] at hBn
                  exact hBn.1.2.1.1 hx
                rw [Bool.eq_iff_iff]
                simp [hxy]
              rw [e]
              rw [hy] at hm
              simpa using hm)
            (fun x hx => by simp [hKS x hx])
            (by
              intro x hx
              rw [List.mem_append] at hx
              rcases hx with hx | hx
              · exact hSC x hx
              · simp only [List.mem_singleton] at hx; rw [hx]; simp [hyC])
            (by
              intro x hx w hw
              rw [List.mem_append] at hx
              rcases hx with hx | hx
              · simp [hS x hx w hw]
              · simp only [List.mem_singleton] at hx
                rw [hx] at hw
                simp [hpy w hw])
            (fun w hw => by simp [hpb w hw])
          have o2 := ih S y hKS hSC hS hyC hyS hpy
          have o3 := hcells S y b hS hKS (fun x hx => by
              have := hSC x hx
              rw [List.mem_append] at this ⊢
              exact this.imp id (hC'B x)) hyB hzB hyS hbS hyb hpy hpb
          have hd : ∀ {u w : RevId}, u ≠ w → ∀ c : Chr α, c.insertedBy u = true → (!c.insertedBy w) = true := by
            intro u w hne c hc
            rw [insertedBy_disjoint hne c hc]; rfl
          have e2 : unionAt Z (S ++ [n, y]) = (unionAt Z (S ++ [y] ++ [n, b])).filter (fun c => !c.insertedBy b) :=
            (unionAt_drop (by simp only [List.mem_append, List.mem_cons, List.not_mem_nil, or_false]; grind)
              (by intro x; simp only [List.mem_append, List.mem_cons, List.not_mem_nil, or_false]; grind)).symm
          have e3 : unionAt Z (S ++ [y, b]) = (unionAt Z (S ++ [y] ++ [n, b])).filter (fun c => !c.insertedBy n) :=
            (unionAt_drop (by simp only [List.mem_append, List.mem_cons, List.not_mem_nil, or_false]; grind)
              (by intro x; simp only [List.mem_append, List.mem_cons, List.not_mem_nil, or_false]; grind)).symm
          have e1 : unionAt Z (S ++ [n, b]) = (unionAt Z (S ++ [y] ++ [n, b])).filter (fun c => !c.insertedBy y) :=
            (unionAt_drop (by simp only [List.mem_append, List.mem_cons, List.not_mem_nil, or_false]; grind)
              (by intro x; simp only [List.mem_append, List.mem_cons, List.not_mem_nil, or_false]; grind)).symm
          rw [e2] at o2
          rw [e3] at o3
          have o2 := o2.of_filter (fun c _ => hd (Ne.symm hbn) c) (fun c _ => hd hyb c)
          have o3 := o3.of_filter (fun c _ => hd hyn c) (fun c _ => hd hbn c)
          rw [e1]
          have fit := FullPriority.fit (n := fullPrio pr n) (b := fullPrio pr y) (z := fullPrio pr b) (hses b hzB)
          exact o1.filter_not o2 o3 fit.1 fit.2
      refine key _ S rfl hKS ?_ hS hpb
      intro x hx
      have := hSC x hx
      rw [← List.append_assoc, List.mem_append] at this
      rcases this with h | h
      · exact h
      · simp only [List.mem_singleton] at h
        exact absurd (h ▸ hx) hbS
    · have hbC' : b ∈ C' := by
        rw [List.mem_append] at hb
        exact hb.resolve_right (by simpa using hbz)
      have hbn : b ≠ n := by rintro rfl; exact hnB (hC'B _ hbC')
      by_cases hzS : z ∈ S
      · have hS' : ∀ x, x ∈ S.filter (fun x => x != z) ↔ x ∈ S ∧ x ≠ z := by intro x; simp
        have hSC' : ∀ x ∈ S, x ≠ z → x ∈ K ++ C' := by
          intro x hx hne
          have := hSC x hx
          rw [← List.append_assoc, List.mem_append] at this
          exact this.resolve_right (by simpa using hne)
        have := ih (S.filter (fun x => x != z)) b
          (fun x hx => (hS' x).2 ⟨hKS x hx, by rintro rfl; exact hzK hx⟩)
          (fun x hx => hSC' x ((hS' x).1 hx).1 ((hS' x).1 hx).2)
          (by
            intro x hx w hw
            obtain ⟨h1, h2⟩ := (hS' x).1 hx
            exact (hS' w).2 ⟨hS x h1 w hw, by rintro rfl; exact hzp x (hSC' x h1 h2) hw⟩)
          hbC' (fun h => hbS ((hS' b).1 h).1)
          (fun w hw => (hS' w).2 ⟨hpb w hw, by rintro rfl; exact hzp b (by simp [hbC']) hw⟩)
        have hzn : z ≠ n := by rintro rfl; exact hnB hzB
        rw [← unionAt_drop (T := S ++ [n, b]) (z := z)] at this
        · refine this.of_filter (fun c _ hc => ?_) (fun c _ hc => ?_)
          · rw [insertedBy_disjoint (Ne.symm hzn) c hc]; rfl
          · rw [insertedBy_disjoint hbz c hc]; rfl
        · simp only [List.mem_append, hS', List.mem_cons, List.not_mem_nil, or_false]; grind
        · intro x
          simp only [List.mem_append, hS', List.mem_cons, List.not_mem_nil, or_false]
          by_cases hxz : x = z <;> simp [hxz, hzS]
      · refine ih S b hKS ?_ hS hbC' hbS hpb
        intro x hx
        have := hSC x hx
        rw [← List.append_assoc, List.mem_append] at this
        rcases this with h | h
        · exact h
        · simp only [List.mem_singleton] at h
          exact absurd (h ▸ hx) hzS

/-! ### The state of a network -/

/-- Every edit of `L` comes after those it was made on top of. -/
def Linear (past : RevId → List RevId) (L : List RevId) : Prop := ∀ L1 x L2, L = L1 ++ x :: L2 → ∀ y ∈ past x, y ∈ L1

theorem Linear.prefix {past : RevId → List RevId} {L : List RevId} (h : Linear past L) {L1 L2 : List RevId} (hl : L = L1 ++ L2) : Down past L1 := by
  intro x hx y hy
  obtain ⟨u, v, hs⟩ := List.append_of_mem hx
  have := h u x (v ++ L2) (by rw [hl, hs]; simp) y hy
  rw [hs]; simp [this]

theorem Linear.down {past : RevId → List RevId} {L : List RevId} (h : Linear past L) : Down past L := h.prefix (L2 := []) (by simp)

/-- The replicas `es` of the document `Z`; `all` are all edits, in the order in which they were made, and `past n` those on top of which `n` was made. -/
structure Net {ι : Type} (own : Nat → Nat × Nat) (Z : List (Chr α)) (pr grp : RevId → Nat) (past : RevId → List RevId) (all : List RevId)
    (es : ι → Engine α) : Prop where
  zok : ZOk Z grp
  peer : ∀ i, Peer Z pr grp (es i)
  nodup : all.Nodup
  sub : ∀ i, ∀ x ∈ ids (es i).revs, x ∈ all
  known : ∀ c ∈ Z, c.present all = true ∧ ∀ d ∈ c.delBy, d.id ∈ all
  order : ∀ i, Linear past (ids (es i).revs)
  allOrder : Linear past all
  mine : ∀ i, ∀ x ∈ all, x.sessionId = (es i).session → x ∈ ids (es i).revs
  ses : ∀ i j, (es i).session = (es j).session → i = j
  own : ∀ x ∈ all, x ≠ ⟨0, 0, 0⟩ → x.sessionId = own (pr x)
  cells : ∀ S x y, Down past S → (∀ z ∈ S, z ∈ all) → x ∈ all → y ∈ all → x ∉ S → y ∉ S → x ≠ y → (∀ z ∈ past x, z ∈ S) → (∀ z ∈ past y, z ∈ S) →
    Ord (insertedBy x) (insertedBy y) ((fullPrio pr y).ge (fullPrio pr x)) (unionAt Z (S ++ [x, y]))

theorem Peer.root {Z : List (Chr α)} {pr grp : RevId → Nat} {e : Engine α} (h : Peer Z pr grp e) : (⟨0, 0, 0⟩ : RevId) ∈ ids e.revs := by
  obtain ⟨r0, rest, h1, h2, _⟩ := h.head
  rw [h1, ids_cons, h2]; simp

theorem Net.merge {ι : Type} [DecidableEq ι] {own : Nat → Nat × Nat} {Z : List (Chr α)} {pr grp : RevId → Nat} {past : RevId → List RevId}
    {all : List RevId} {es : ι → Engine α} (h : Net own Z pr grp past all es) (i j : ι) :
    ∃ e', (es i).merge (es j) = some e' ∧ Net own Z pr grp past all (setAt es i e') ∧ ids e'.revs = ids (es i).revs ++ onlyIn (es j) (es i) ∧
      (onlyIn (es j) (es i) = [] → e' = es i) := by
  generalize ha : es i = a at *
  generalize hb : es j = b at *
  have pa : Peer Z pr grp a := ha ▸ h.peer i
  have pb : Peer Z pr grp b := hb ▸ h.peer j
  have sa : ∀ x ∈ ids a.revs, x ∈ all := ha ▸ h.sub i
  have sb : ∀ x ∈ ids b.revs, x ∈ all := hb ▸ h.sub j
  have la : Linear past (ids a.revs) := ha ▸ h.order i
  have lb : Linear past (ids b.revs) := hb ▸ h.order j
  have ma : ∀ x ∈ all, x.sessionId = a.session → x ∈ ids a.revs := ha ▸ h.mine i
  have hcells : Cells pr Z (inBoth a b) (onlyIn a b) (onlyIn b a) := by
    intro A1 x A2 B1 y B2 hA hB
    obtain ⟨P1, P2, p1, p2, _⟩ := split_filter hA
    obtain ⟨Q1, Q2, q1, q2, _⟩ := split_filter hB
    have hx := mem_onlyIn.1 (by rw [hA]; simp : x ∈ onlyIn a b)
    have hy := mem_onlyIn.1 (by rw [hB]; simp : y ∈ onlyIn b a)
    have mA : ∀ z, z ∈ A1 ↔ z ∈ P1 ∧ z ∉ ids b.revs := by intro z; rw [← p2, List.mem_filter]; simp
    have mB : ∀ z, z ∈ B1 ↔ z ∈ Q1 ∧ z ∉ ids a.revs := by intro z; rw [← q2, List.mem_filter]; simp
    have dP := la.prefix p1
    have dQ := lb.prefix q1
    have mP : ∀ z ∈ P1, z ∈ ids a.revs := by intro z hz; rw [p1]; simp [hz]
    have mQ : ∀ z ∈ Q1, z ∈ ids b.revs := by intro z hz; rw [q1]; simp [hz]
    have toS : ∀ z, z ∈ P1 ∨ z ∈ Q1 → z ∈ inBoth a b ++ A1 ++ B1 := by
      intro z hz
      simp only [List.mem_append, mem_inBoth, mA, mB]
      rcases hz with hz | hz
      · by_cases hzb : z ∈ ids b.revs
        · exact Or.inl (Or.inl ⟨mP z hz, hzb⟩)
        · exact Or.inl (Or.inr ⟨hz, hzb⟩)
      · by_cases hza : z ∈ ids a.revs
        · exact Or.inl (Or.inl ⟨hza, mQ z hz⟩)
        · exact Or.inr ⟨hz, hza⟩
    have na := pa.den.revsOk.nodup
    have nb := pb.den.revsOk.nodup
    refine h.cells _ x y ?_ ?_ (sa x hx.1) (sb y hy.1) ?_ ?_ (by rintro rfl; exact hx.2 hy.1) ?_ ?_
    · intro z hz w hw
      rw [List.mem_append, List.mem_append, mem_inBoth, mA, mB] at hz
      rcases hz with (hz | hz) | hz
      · simp only [List.mem_append, mem_inBoth]
        exact Or.inl (Or.inl ⟨la.down z hz.1 w hw, lb.down z hz.2 w hw⟩)
      · exact toS w (Or.inl (dP z hz.1 w hw))
      · exact toS w (Or.inr (dQ z hz.1 w hw))
    · intro z hz
      rw [List.mem_append, List.mem_append, mem_inBoth, mA, mB] at hz
      rcases hz with (hz | hz) | hz
      · exact sa z hz.1
      · exact sa z (mP z hz.1)
      · exact sb z (mQ z hz.1)
    · rw [List.mem_append, List.mem_append, mem_inBoth, mA, mB]
      rintro ((hz | hz) | hz)
      · exact hx.2 hz.2
      · rw [p1, List.nodup_append] at na
        exact na.2.2 x hz.1 x (by simp) rfl
      · exact hz.2 hx.1
    · rw [List.mem_append, List.mem_append, mem_inBoth, mA, mB]
      rintro ((hz | hz) | hz)
      · exact hy.2 hz.1
      · exact hz.2 hy.1
      · rw [q1, List.nodup_append] at nb
        exact nb.2.2 y hz.1 y (by simp) rfl
    · intro z hz
      exact toS z (Or.inl (la P1 x P2 p1 z hz))
    · intro z hz
      exact toS z (Or.inr (lb Q1 y Q2 q1 z hz))
  have hsa : ∀ x ∈ onlyIn a b, x.sessionId = own (pr x) := by
    intro x hx
    have hx := mem_onlyIn.1 hx
    exact h.own x (sa x hx.1) (by rintro rfl; exact hx.2 pb.root)
  have hsb : ∀ x ∈ onlyIn b a, x.sessionId ≠ a.session := by
    intro x hx he
    have hx := mem_onlyIn.1 hx
    exact hx.2 (ma x (sb x hx.1) he)
  obtain ⟨e', m1, m2, m3, m4, _, m6⟩ := merge_spec h.zok pa pb hcells hsa hsb
  have hses : ∀ k, (setAt es i e' k).session = (es k).session := by
    intro k
    unfold setAt
    split
    · next hk => rw [m4, hk, ha]
    · rfl
  have all3 : ∀ {P : Engine α → Prop}, P e' → (∀ k, P (es k)) → ∀ k, P (setAt es i e' k) := by
    intro P h1 h2 k
    unfold setAt
    split
    · exact h1
    · exact h2 k
  have hsub : ∀ x ∈ ids e'.revs, x ∈ all := by
    intro x hx
    rw [m3, List.mem_append] at hx
    rcases hx with hx | hx
    · exact sa x hx
    · exact sb x (mem_onlyIn.1 hx).1
  refine ⟨e', m1, ⟨h.zok, all3 m2 h.peer, h.nodup, all3 (P := fun e => ∀ x ∈ ids e.revs, x ∈ all) hsub h.sub, h.known, ?_, h.allOrder, ?_, ?_, h.own, h.cells⟩, m3, m6⟩
  · refine all3 (P := fun e => Linear past (ids e.revs)) ?_ h.order
    intro L1 x L2 hl y hy
    rw [m3, List.append_eq_append_iff] at hl
    rcases hl with ⟨C, c1, c2⟩ | ⟨C, c1, c2⟩
    · obtain ⟨Q1, Q2, q1, q2, _⟩ := split_filter (l := ids b.revs) c2
      have := lb Q1 x Q2 q1 y hy
      rw [c1, List.mem_append]
      by_cases hya : y ∈ ids a.revs
      · exact Or.inl hya
      · refine Or.inr ?_
        rw [← q2, List.mem_filter]
        exact ⟨this, by simpa using hya⟩
    · cases C with
      | nil =>
        simp only [List.append_nil, List.nil_append] at c1 c2
        obtain ⟨Q1, Q2, q1, q2, _⟩ := split_filter (l := ids b.revs) (B1 := []) c2.symm
        have := lb Q1 x Q2 q1 y hy
        rw [← c1]
        by_cases hya : y ∈ ids a.revs
        · exact hya
        · rw [List.filter_eq_nil_iff] at q2
          simpa using q2 y this
      | cons z C =>
        simp only [List.cons_append, List.cons.injEq] at c2
        obtain ⟨rfl, _⟩ := c2
        exact la L1 x C c1 y hy
  · intro k x hx he
    rw [hses] at he
    have := h.mine k x hx he
    unfold setAt
    split
    · next hk =>
      rw [hk, ha] at this
      rw [m3]; simp [this]
    · exact this
  · intro k l hkl
    rw [hses, hses] at hkl
    exact h.ses k l hkl

/-- A function that has the value `v` at `n`. -/
def setPast (f : RevId → List RevId) (n : RevId) (v : List RevId) : RevId → List RevId := fun x => if x = n then v else f x

theorem Net.edit {ι : Type} [DecidableEq ι] {tok : RevId → Nat} {own : Nat → Nat × Nat} {Z : List (Chr α)} {pr grp : RevId → Nat}
    {past : RevId → List RevId} {all : List RevId} {es : ι → Engine α} (h : Net own Z pr grp past all es) (k : ι) {p g t : Nat} {dl : Delta α}
    (hd : dl.WF) (ho : own p = (es k).session) {e' : Engine α} (he : (es k).tryEditRev tok p g t dl = some (.ok e')) :
    ∃ Z' pr' grp' past' all', Net own Z' pr' grp' past' all' (setAt es k e') := by
  generalize ha : es k = a at *
  have pa : Peer Z pr grp a := ha ▸ h.peer k
  have sa : ∀ x ∈ ids a.revs, x ∈ all := ha ▸ h.sub k
  have la : Linear past (ids a.revs) := ha ▸ h.order k
  have ma : ∀ x ∈ all, x.sessionId = a.session → x ∈ ids a.revs := ha ▸ h.mine k
  obtain ⟨pre, r, post, a1, a2, a3⟩ := pa.den.edit_inv he
  obtain ⟨I, del, s, J, e1, r', _, _, _, _, _, hm, b1, b2, b3, b4, b5, _, _, ⟨i, x, m, b6, _, _⟩, _⟩ :=
    pa.den.edit tok a1 t a2 p g dl hd a3
  rw [he] at b1; cases b1
  have hna := pa.den.revsOk.nodup
  have hnA := pa.den.fresh_id
  have hnses : a.nextRevId.sessionId = a.session := rfl
  generalize a.nextRevId = n at *
  have hnall : n ∉ all := fun hm => hnA (ma n hm hnses)
  have hids : ids e'.revs = ids a.revs ++ [n] := by rw [b5, ids_append, b6]; simp
  obtain ⟨B, hB⟩ : ∃ B, B = all.filter (fun x => !(ids a.revs).contains x) := ⟨_, rfl⟩
  have mB : ∀ x, x ∈ B ↔ x ∈ all ∧ x ∉ ids a.revs := by intro x; rw [hB]; simp
  have hBn : B.Nodup := by rw [hB]; exact List.filter_sublist.nodup h.nodup
  have hnB : n ∉ B := fun hm => hnall ((mB n).1 hm).1
  have hall : ∀ x, x ∈ ids a.revs ++ B ↔ x ∈ all := by
    intro x
    rw [List.mem_append, mB]
    by_cases hx : x ∈ ids a.revs
    · simp [hx, sa x hx]
    · simp [hx]
  have hnd : (ids a.revs ++ [n] ++ B).Nodup := by
    rw [List.nodup_append, List.nodup_append]
    refine ⟨⟨hna, by simp, ?_⟩, hBn, ?_⟩
    · intro x hx y hy
      simp only [List.mem_singleton] at hy
      subst hy; rintro rfl; exact hnA hx
    · intro x hx y hy
      rintro rfl
      simp only [List.mem_append, List.mem_singleton] at hx
      rcases hx with hx | rfl
      · exact ((mB _).1 hy).2 hx
      · exact hnB hy
  obtain ⟨Z', hext, q1, q2, q3, q4, w5⟩ := pa.place h.zok hnA hnd
    (fun c hc => ⟨by rw [present_congr hall]; exact (h.known c hc).1, fun d hd => (hall _).2 ((h.known c hc).2 d hd)⟩) hm b2 b3 b5 b6
  have hprx : ∀ x, x ≠ n → fullPrio (setRev pr n p) x = fullPrio pr x := by intro x hx; simp [fullPrio, setRev, hx]
  have hpx : ∀ x, x ≠ n → setPast past n (ids a.revs) x = past x := by intro x hx; simp [setPast, hx]
  have hpn : setPast past n (ids a.revs) n = ids a.revs := by simp [setPast]
  have ne_of : ∀ {x}, x ∈ all → x ≠ n := by rintro x hx rfl; exact hnall hx
  have lin : ∀ {L : List RevId}, (∀ x ∈ L, x ∈ all) → Linear past L → Linear (setPast past n (ids a.revs)) L := by
    intro L hL h1 L1 x L2 hs y hy
    rw [hpx x (ne_of (hL x (by rw [hs]; simp)))] at hy
    exact h1 L1 x L2 hs y hy
  have lin2 : ∀ {L : List RevId}, (∀ x ∈ L, x ∈ all) → (∀ x ∈ ids a.revs, x ∈ L) → Linear past L → Linear (setPast past n (ids a.revs)) (L ++ [n]) := by
    intro L hL hK h1 L1 x L2 hs y hy
    rcases List.eq_nil_or_concat L2 with rfl | ⟨L3, z, rfl⟩
    · obtain ⟨rfl, h7⟩ := List.append_inj' hs rfl
      simp only [List.cons.injEq, and_true] at h7
      rw [← h7, hpn] at hy
      exact hK y hy
    · rw [List.concat_eq_append, ← List.cons_append, ← List.append_assoc] at hs
      obtain ⟨h7, _⟩ := List.append_inj' hs rfl
      exact lin hL h1 L1 x L3 h7 y hy
  -- the cells of the old edits
  have old : ∀ S x y, n ∉ S → Down past S → (∀ z ∈ S, z ∈ all) → x ∈ all → y ∈ all → x ∉ S → y ∉ S → x ≠ y → (∀ z ∈ past x, z ∈ S) →
      (∀ z ∈ past y, z ∈ S) →
      Ord (insertedBy x) (insertedBy y) ((fullPrio (setRev pr n p) y).ge (fullPrio (setRev pr n p) x)) (unionAt Z' (S ++ [x, y])) := by
    intro S x y hnS c1 c2 c3 c4 c5 c6 c7 c8 c9
    rw [hprx x (ne_of c3), hprx y (ne_of c4)]
    refine ord_of_ext hext ?_ (h.cells S x y c1 c2 c3 c4 c5 c6 c7 c8 c9)
    simp only [List.mem_append, List.mem_cons, List.not_mem_nil, or_false]
    rintro (h1 | h1 | h1)
    · exact hnS h1
    · exact ne_of c3 h1.symm
    · exact ne_of c4 h1.symm
  have hsesB : ∀ x ∈ B, n.sessionId ≠ x.sessionId := by
    intro x hx he
    have := (mB x).1 hx
    exact this.2 (ma x this.1 (by rw [← he, hnses]))
  -- and those of the new one
  have new : ∀ S y, n ∉ S → Down past S → (∀ z ∈ ids a.revs, z ∈ S) → (∀ z ∈ S, z ∈ all) → y ∈ all → y ∉ S → (∀ z ∈ past y, z ∈ S) →
      Ord (insertedBy n) (insertedBy y) ((fullPrio (setRev pr n p) y).ge (fullPrio (setRev pr n p) n)) (unionAt Z' (S ++ [n, y])) := by
    intro S y hnS c1 c2 c3 c4 c5 c6
    refine order_any (past := past) (K := ids a.revs) (B := B) hnA hnB (fun x hx => ((mB x).1 hx).2) hBn la.down ?_ hsesB ?_ w5 B.length B []
      rfl (by simp) S y c2 (fun x hx => (hall x).2 (c3 x hx)) c1 ((mB y).2 ⟨c4, fun hm => c5 (c2 y hm)⟩) c5 c6
    · intro B1 x B2 hs y hy
      rw [hB] at hs
      obtain ⟨A1, A2, s1, s2, _⟩ := split_filter hs
      have := h.allOrder A1 x A2 s1 y hy
      rw [List.mem_append]
      by_cases hya : y ∈ ids a.revs
      · exact Or.inl hya
      · refine Or.inr ?_
        rw [← s2, List.mem_filter]
        exact ⟨this, by simpa using hya⟩
    · intro S x y d1 d2 d3 d4 d5 d6 d7 d8 d9 d10
      have d3' : ∀ z ∈ S, z ∈ all := fun z hz => (hall z).1 (d3 z hz)
      exact old S x y (fun hm => hnall (d3' n hm)) d1 d3' ((mB x).1 d4).1 ((mB y).1 d5).1 d6 d7 d8 d9 d10
  have hses : ∀ l, (setAt es k e' l).session = (es l).session := by
    intro l
    unfold setAt
    split
    · next hk => rw [b4, hk, ha]
    · rfl
  have all3 : ∀ {P : Engine α → Prop}, P e' → (∀ l, l ≠ k → P (es l)) → ∀ l, P (setAt es k e' l) := by
    intro P h1 h2 l
    unfold setAt
    split
    · exact h1
    · next hl => exact h2 l hl
  refine ⟨Z', setRev pr n p, setRev grp n g, setPast past n (ids a.revs), all ++ [n], ⟨q1, ?_, ?_, ?_, ?_, ?_, ?_, ?_, ?_, ?_, ?_⟩⟩
  · exact all3 q2 (fun l _ => q3 _ (h.peer l) (fun hm => hnall (h.sub l n hm)))
  · rw [List.nodup_append]
    refine ⟨h.nodup, by simp, ?_⟩
    intro x hx y hy
    simp only [List.mem_singleton] at hy
    rw [hy]; exact ne_of hx
  · refine all3 (P := fun e => ∀ x ∈ ids e.revs, x ∈ all ++ [n]) ?_ (fun l _ x hx => by simp [h.sub l x hx])
    intro x hx
    rw [hids, List.mem_append] at hx
    rw [List.mem_append]
    exact hx.imp (sa x) id
  · intro c hc
    have hsub : ∀ x, x ∈ ids a.revs ++ B ++ [n] ↔ x ∈ all ++ [n] := by
      intro x
      rw [List.mem_append, hall, List.mem_append]
    exact ⟨by rw [← present_congr hsub]; exact (q4 c hc).1, fun d hd => (hsub _).1 ((q4 c hc).2 d hd)⟩
  · refine all3 (P := fun e => Linear _ (ids e.revs)) ?_ (fun l _ => lin (h.sub l) (h.order l))
    rw [hids]
    exact lin2 sa (fun x hx => hx) la
  · exact lin2 (fun x hx => hx) sa h.allOrder
  · intro l x hx hs
    rw [hses] at hs
    rw [List.mem_append, List.mem_singleton] at hx
    unfold setAt
    split
    · next hl =>
      rw [hids, List.mem_append, List.mem_singleton]
      rw [hl, ha] at hs
      exact hx.imp (fun hx => ma x hx hs) id
    · next hl =>
      rcases hx with hx | rfl
      · exact h.mine l x hx hs
      · rw [hnses, ← ha] at hs
        exact absurd (h.ses k l hs).symm hl
  · intro l l' hl
    rw [hses, hses] at hl
    exact h.ses l l' hl
  · intro x hx h0
    rw [List.mem_append, List.mem_singleton] at hx
    rcases hx with hx | rfl
    · have : setRev pr n p x = pr x := by simp [setRev, ne_of hx]
      rw [this]; exact h.own x hx h0
    · have : setRev pr x p x = p := by simp [setRev]
      rw [this, ho, hnses]
  · intro S x y c1 c2 c3 c4 c5 c6 c7 c8 c9
    rw [List.mem_append, List.mem_singleton] at c3 c4
    have toPast : n ∉ S → Down past S := by
      intro hnS z hz w hw
      exact c1 z hz w (by rw [hpx z (by rintro rfl; exact hnS hz)]; exact hw)
    have toAll : n ∉ S → ∀ z ∈ S, z ∈ all := by
      intro hnS z hz
      have := c2 z hz
      rw [List.mem_append, List.mem_singleton] at this
      exact this.resolve_right (by rintro rfl; exact hnS hz)
    by_cases hxn : x = n
    · subst hxn
      have hy := c4.resolve_right (Ne.symm c7)
      rw [hpn] at c8
      rw [hpx y (Ne.symm c7)] at c9
      exact new S y c5 (toPast c5) c8 (toAll c5) hy c6 c9
    · have hx := c3.resolve_right hxn
      rw [hpx x hxn] at c8
      by_cases hyn : y = n
      · subst hyn
        rw [hpn] at c9
        have := (new S x c6 (toPast c6) c9 (toAll c6) hx c5 c8).swap
        have hxB : x ∈ B := (mB x).2 ⟨hx, fun hm => c5 (c9 x hm)⟩
        rw [← FullPriority.ge_swap (a := fullPrio (setRev pr y p) y) (b := fullPrio (setRev pr y p) x) (hsesB x hxB)] at this
        rw [unionAt_congr (T := S ++ [y, x])]
        · exact this
        · intro z
          simp only [List.mem_append, List.mem_cons, List.not_mem_nil, or_false]
          grind
      · have hy := c4.resolve_right hyn
        rw [hpx y hyn] at c9
        by_cases hnS : n ∈ S
        · have hS' : ∀ z, z ∈ S.filter (fun z => z != n) ↔ z ∈ S ∧ z ≠ n := by intro z; simp
          have pall : ∀ z ∈ all, ∀ w ∈ past z, w ≠ n := by
            intro z hz w hw
            exact ne_of (h.allOrder.down z hz w hw)
          have sall : ∀ z ∈ S, z ≠ n → z ∈ all := by
            intro z hz hne
            have := c2 z hz
            rw [List.mem_append, List.mem_singleton] at this
            exact this.resolve_right hne
          have := old (S.filter (fun z => z != n)) x y (by simp)
            (by
              intro z hz w hw
              obtain ⟨z1, z2⟩ := (hS' z).1 hz
              exact (hS' w).2 ⟨c1 z z1 w (by rw [hpx z z2]; exact hw), pall z (sall z z1 z2) w hw⟩)
            (fun z hz => sall z ((hS' z).1 hz).1 ((hS' z).1 hz).2) hx hy (fun hm => c5 ((hS' x).1 hm).1) (fun hm => c6 ((hS' y).1 hm).1) c7
            (fun z hz => (hS' z).2 ⟨c8 z hz, pall x hx z hz⟩) (fun z hz => (hS' z).2 ⟨c9 z hz, pall y hy z hz⟩)
          rw [← unionAt_drop (T := S ++ [x, y]) (z := n)] at this
          · refine this.of_filter (fun c _ hc => ?_) (fun c _ hc => ?_)
            · rw [insertedBy_disjoint hxn c hc]; rfl
            · rw [insertedBy_disjoint hyn c hc]; rfl
          · simp only [List.mem_append, hS', List.mem_cons, List.not_mem_nil, or_false]; grind
          · intro z
            simp only [List.mem_append, hS', List.mem_cons, List.not_mem_nil, or_false]
            by_cases hzn : z = n <;> simp [hzn, hnS]
        · exact old S x y hnS (toPast hnS) (toAll hnS) hx hy c5 c6 c7 c8 c9

theorem Network.net {ι : Type} [DecidableEq ι] {tok : RevId → Nat} {own : Nat → Nat × Nat} {es : ι → Engine α} (h : Network tok own es) :
    ∃ Z pr grp past all, Net own Z pr grp past all es := by
  induction h with
  | @start e es s he hs hes =>
    obtain ⟨D, h1, h2⟩ := Engine.empty_eq (α := α)
    rw [h2] at he; cases he
    simp [Engine.setSessionId] at hes
    have hi : ∀ i, ids (es i).revs = [⟨0, 0, 0⟩] := by intro i; rw [← hes]; rfl
    have hse : ∀ i, (es i).session = s i := by intro i; rw [← hes]
    refine ⟨[], fun _ => 0, fun _ => 0, fun _ => [], [⟨0, 0, 0⟩], ⟨⟨by simp, by simp, by simp, by simp⟩, ?_, by simp, ?_, by simp, ?_, ?_, ?_, ?_, ?_, ?_⟩⟩
    · intro i
      rw [← hes]
      refine ⟨by simpa [view, unionAt] using den_empty D h1 (s i), by intro c hc; simp at hc, rfl, _, [], rfl, rfl, by simp⟩
    · intro i x hx; rw [hi] at hx; exact hx
    · intro i L1 x L2 _ y hy; simp at hy
    · intro L1 x L2 _ y hy; simp at hy
    · intro i x hx _; rw [hi]; exact hx
    · intro i j hij; rw [hse, hse] at hij; exact hs i j hij
    · intro x hx h0; simp at hx; exact absurd hx h0
    · intro S x y _ _ hx hy _ _ hne
      simp at hx hy
      exact absurd (hx.trans hy.symm) hne
  | edit _ i p g t d hd ho he ih =>
    obtain ⟨Z, pr, grp, past, all, h⟩ := ih
    exact h.edit i hd ho he
  | merge _ i j hm ih =>
    obtain ⟨Z, pr, grp, past, all, h⟩ := ih
    obtain ⟨e', h1, h2, _⟩ := h.merge i j
    rw [hm] at h1; cases h1
    exact ⟨Z, pr, grp, past, all, h2⟩

end Xi
