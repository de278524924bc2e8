import Verif.Core.WrapInv

/-!
# Lemmas on wrapping after an edit
-/

namespace Xi

variable {rule : WrapRule}

/-- `new` is `old` with `S..T` replaced with `N` bytes. -/
structure Edited (old new : List UInt8) (S T N : Nat) : Prop where
  st : S ≤ T
  le : T ≤ old.length
  len : new.length = S + N + (old.length - T)
  left : new.take S = old.take S
  right : new.drop (S + N) = old.drop T

theorem Edited.mk' {old ins : List UInt8} {S T : Nat} (h1 : S ≤ T) (h2 : T ≤ old.length) :
    Edited old (old.take S ++ ins ++ old.drop T) S T ins.length := by
  refine ⟨h1, h2, by simp; omega, ?_, ?_⟩
  · rw [List.append_assoc, List.take_append_of_le_length (by simp; omega), List.take_take, Nat.min_self]
  · rw [List.drop_append, List.drop_eq_nil_of_le (by simp; omega)]
    simp only [List.length_append, List.length_take, List.nil_append]
    rw [show S + ins.length - (min S old.length + ins.length) = 0 by omega, List.drop_zero]

namespace Edited

variable {old new : List UInt8} {S T N : Nat}

theorem get_left (h : Edited old new S T N) {i : Nat} (hi : i < S) : new[i]? = old[i]? := by
  have := congrArg (fun l => l[i]?) h.left
  simpa [List.getElem?_take, hi] using this

theorem get_right (h : Edited old new S T N) (i : Nat) : new[S + N + i]? = old[T + i]? := by
  have := congrArg (fun l => l[i]?) h.right
  simpa [List.getElem?_drop] using this

theorem boundary_left (h : Edited old new S T N) {k : Nat} (hk : k ≤ S) : LineBoundary new k ↔ LineBoundary old k := by
  by_cases h0 : 0 < k
  · simp only [LineBoundary]
    rw [h.get_left (by omega)]
  · simp only [LineBoundary, h0, false_and]

theorem boundary_right (h : Edited old new S T N) {k : Nat} (hk : 0 < k) : LineBoundary new (S + N + k) ↔ LineBoundary old (T + k) := by
  simp only [LineBoundary]
  rw [show S + N + k - 1 = S + N + (k - 1) by omega, show T + k - 1 = T + (k - 1) by omega, h.get_right]
  grind

theorem take_left (h : Edited old new S T N) {k : Nat} (hk : k ≤ S) : new.take k = old.take k := by
  have := congrArg (List.take k) h.left
  rwa [List.take_take, List.take_take, Nat.min_eq_left hk] at this

theorem drop_right (h : Edited old new S T N) (k : Nat) : new.drop (S + N + k) = old.drop (T + k) := by
  have := congrArg (List.drop k) h.right
  rwa [List.drop_drop, List.drop_drop] at this

theorem getLast_take {t : List UInt8} {k : Nat} (h : LineBoundary t k) : (t.take k).getLast? = some newline := by
  have := (List.getElem?_eq_some_iff.1 h.2).1
  have := h.1
  rw [List.getLast?_eq_getElem?, List.length_take, Nat.min_eq_left (by omega), List.getElem?_take, if_pos (by omega)]
  exact h.2

/-- Soft breaks up to a line start before the edit are as before. -/
theorem soft_before (h : Edited old new S T N) {p : Nat} (hp : p ≤ S) (hb : p = 0 ∨ LineBoundary new p) {k : Nat} (hk : k ≤ p) :
    Soft rule new k ↔ Soft rule old k := by
  rcases hb with rfl | hb
  · have hk0 : k = 0 := by omega
    subst hk0
    constructor
    · intro h'; exact absurd h'.pos.1 (by omega)
    · intro h'; exact absurd h'.pos.1 (by omega)
  · have hb' := (h.boundary_left hp).1 hb
    have hst := h.st
    have hle := h.le
    have hlen := h.len
    have e1 := soft_left (rule := rule) (A := new.take p) (B := new.drop p) (.inl (getLast_take hb)) (k := k) (by simp; omega)
    have e2 := soft_left (rule := rule) (A := old.take p) (B := old.drop p) (.inl (getLast_take hb')) (k := k) (by simp; omega)
    rw [List.take_append_drop] at e1 e2
    rw [e1, e2, h.take_left hp]

/-- Soft breaks after a line start after the edit are as before. -/
theorem soft_after (h : Edited old new S T N) {p : Nat} (hb : LineBoundary new (S + N + p)) (hp : 0 < p) {k : Nat} (hk : p < k) :
    Soft rule new (S + N + k) ↔ Soft rule old (T + k) := by
  have hb' := (h.boundary_right hp).1 hb
  have hle := h.le
  have hlen := h.len
  have l1 := (List.getElem?_eq_some_iff.1 hb.2).1
  have l2 := (List.getElem?_eq_some_iff.1 hb'.2).1
  have e1 := soft_right (rule := rule) (A := new.take (S + N + p)) (B := new.drop (S + N + p)) (.inr (getLast_take hb)) (k := k - p) (by omega)
  have e2 := soft_right (rule := rule) (A := old.take (T + p)) (B := old.drop (T + p)) (.inr (getLast_take hb')) (k := k - p) (by omega)
  rw [List.take_append_drop, List.length_take, Nat.min_eq_left (by omega)] at e1 e2
  rw [show S + N + p + (k - p) = S + N + k by omega] at e1
  rw [show T + p + (k - p) = T + k by omega] at e2
  rw [e1, e2, h.drop_right]

theorem char_left (h : Edited old new S T N) (ho : Utf8 old) (hn : Utf8 new) {k : Nat} (hk : k ≤ S) (hc : CharBoundary old k) : CharBoundary new k := by
  rw [← boundary_iff_spec ho, boundary_iff ho] at hc
  rw [← boundary_iff_spec hn, boundary_iff hn]
  have hle := h.le
  have hst := h.st
  have hlen := h.len
  refine ⟨by omega, by rw [h.take_left hk]; exact hc.2.1, ?_⟩
  refine utf8_right (a := new.take k) (by rw [h.take_left hk]; exact hc.2.1) ?_
  rw [List.take_append_drop]; exact hn

theorem char_right (h : Edited old new S T N) (ho : Utf8 old) (hn : Utf8 new) {k : Nat} (hc : CharBoundary old (T + k)) : CharBoundary new (S + N + k) := by
  rw [← boundary_iff_spec ho, boundary_iff ho] at hc
  rw [← boundary_iff_spec hn, boundary_iff hn]
  have hle := h.le
  have hst := h.st
  have hlen := h.len
  refine ⟨by omega, ?_, by rw [h.drop_right]; exact hc.2.2⟩
  refine utf8_left (b := new.drop (S + N + k)) (by rw [h.drop_right]; exact hc.2.2) ?_
  rw [List.take_append_drop]; exact hn

end Edited

/-- The flags after a blank stretch was put in. -/
theorem breakAt_blanked {b : List Bool} {S T N : Nat} (h1 : S ≤ T) (h2 : T ≤ b.length) {k : Nat} :
    BreakAt (b.take S ++ List.replicate N false ++ b.drop T) k ↔
      k ≤ S ∧ BreakAt b k ∨ S + N < k ∧ BreakAt b (T + (k - (S + N))) := by
  simp only [BreakAt]
  by_cases h0 : 0 < k
  · by_cases hk : k ≤ S
    · rw [List.append_assoc, List.getElem?_append_left (by simp; omega), List.getElem?_take, if_pos (by omega)]
      grind
    · by_cases hk' : k ≤ S + N
      · rw [List.append_assoc, List.getElem?_append_right (by simp; omega), List.length_take, Nat.min_eq_left (by omega),
          List.getElem?_append_left (by simp; omega), List.getElem?_replicate]
        grind
      · rw [List.getElem?_append_right (by simp; omega), List.getElem?_drop]
        simp only [List.length_append, List.length_take, List.length_replicate]
        rw [show T + (k - 1 - (min S b.length + N)) = T + (k - (S + N)) - 1 by omega]
        grind
  · grind

/-! ## The list of tasks -/

namespace WrapTasks

/-- In order, with gaps between the tasks. -/
def Gapped (work : List Interval) : Prop := work.Pairwise (fun a b => a.stop < b.start) ∧ ∀ t ∈ work, t.start < t.stop

theorem joinLoop_gapped (ts : List Interval) : ∀ (work : List Interval), StartsSorted (work ++ ts) → (∀ t ∈ work ++ ts, t.start < t.stop) →
    Gapped work → Gapped (joinLoop ts work) := by
  induction ts with
  | nil => intro work _ _ h; exact h
  | cons t ts ih =>
    intro work hs hne hg
    rw [joinLoop]
    have hpush : StartsSorted ((work ++ [t]) ++ ts) ∧ (∀ x ∈ (work ++ [t]) ++ ts, x.start < x.stop) := by
      simpa using And.intro hs hne
    have h2 := hne t (by simp)
    split
    · rename_i prev hp
      obtain ⟨ys, rfl⟩ := List.getLast?_eq_some_iff.1 hp
      have h1 := hne prev (by simp)
      have h3 : prev.start ≤ t.start := (List.pairwise_append.1 hs).2.2 prev (by simp) t (by simp)
      obtain ⟨g1, g2⟩ := hg
      split
      · have hu : prev.union t = ⟨prev.start, max prev.stop t.stop⟩ := by
          simp only [Interval.union]
          rw [if_neg (by simp [Interval.isEmpty]; omega), if_neg (by simp [Interval.isEmpty]; omega)]
          simp only [Interval.mk.injEq, and_true]; omega
        rw [hu, List.dropLast_concat]
        apply ih
        · simp only [StartsSorted, List.append_assoc, List.cons_append, List.nil_append, List.pairwise_append, List.pairwise_cons,
            List.mem_cons] at hs ⊢
          obtain ⟨a1, ⟨a2, a3, a4⟩, a5⟩ := hs
          refine ⟨a1, ⟨fun x hx => a2 x (.inr hx), a4⟩, ?_⟩
          rintro x hx y (rfl | hy)
          · exact a5 x hx prev (.inl rfl)
          · exact a5 x hx y (.inr (.inr hy))
        · intro x hx
          simp only [List.append_assoc, List.cons_append, List.nil_append, List.mem_append, List.mem_cons] at hx
          rcases hx with hx | rfl | hx
          · exact hne x (by simp [hx])
          · show prev.start < max prev.stop t.stop; omega
          · exact hne x (by simp [hx])
        · refine ⟨?_, ?_⟩
          · rw [List.pairwise_append] at g1 ⊢
            refine ⟨g1.1, by simp, ?_⟩
            intro x hx y hy
            simp at hy; subst hy
            exact g1.2.2 x hx prev (by simp)
          · intro x hx
            rw [List.mem_append] at hx
            rcases hx with hx | hx
            · exact g2 x (by simp [hx])
            · simp at hx; subst hx; show prev.start < max prev.stop t.stop; omega
      · rename_i hlt
        refine ih _ hpush.1 hpush.2 ⟨?_, ?_⟩
        · rw [List.pairwise_append]
          refine ⟨g1, by simp, ?_⟩
          intro x hx y hy
          simp at hy; subst hy
          rw [List.mem_append] at hx
          rcases hx with hx | hx
          · have := (List.pairwise_append.1 g1).2.2 x hx prev (by simp)
            omega
          · simp at hx; subst hx; omega
        · intro x hx
          rw [List.mem_append] at hx
          rcases hx with hx | hx
          · exact g2 x hx
          · simp at hx; subst hx; exact h2
    · rename_i hp
      rw [List.getLast?_eq_none_iff] at hp
      subst hp
      exact ih _ hpush.1 hpush.2 ⟨by simp, by simpa using h2⟩

/-- A property of the ends of all tasks is kept when tasks are joined. -/
theorem joinLoop_ends {P Q : Nat → Prop} (ts : List Interval) : ∀ (work : List Interval), (∀ t ∈ work ++ ts, P t.start ∧ Q t.stop) →
    ∀ t ∈ joinLoop ts work, P t.start ∧ Q t.stop := by
  induction ts with
  | nil => intro work h; simpa [joinLoop] using h
  | cons t ts ih =>
    intro work h
    rw [joinLoop]
    split
    · rename_i prev hp
      obtain ⟨ys, rfl⟩ := List.getLast?_eq_some_iff.1 hp
      split
      · apply ih
        rw [List.dropLast_concat]
        intro x hx
        simp only [List.append_assoc, List.cons_append, List.nil_append, List.mem_append, List.mem_cons] at hx
        rcases hx with hx | rfl | hx
        · exact h x (by simp [hx])
        · have h1 := h prev (by simp)
          have h2 := h t (by simp)
          simp only [Interval.union]
          split
          · exact h2
          · split
            · exact h1
            · constructor
              · show P (min prev.start t.start)
                rcases Nat.le_total prev.start t.start with hle | hle
                · rw [Nat.min_eq_left hle]; exact h1.1
                · rw [Nat.min_eq_right hle]; exact h2.1
              · show Q (max prev.stop t.stop)
                rcases Nat.le_total prev.stop t.stop with hle | hle
                · rw [Nat.max_eq_right hle]; exact h2.2
                · rw [Nat.max_eq_left hle]; exact h1.2
        · exact h x (by simp [hx])
      · apply ih; simpa using h
    · apply ih; simpa using h

theorem not_meet {a b : Interval} (ha : a.start < a.stop) (hb : b.start < b.stop) :
    (!(a.intersect b).isEmpty) = false ↔ a.stop ≤ b.start ∨ b.stop ≤ a.start := by
  simp [Interval.intersect, Interval.isEmpty]
  omega

/-- A task that is not next to the added range has the right ends already. -/
theorem apart_ends {P : Nat → Prop} {iv t : Interval} (hs : P iv.start) (he : P iv.stop) (ht : t.start < t.stop)
    (h1 : P t.start ∨ iv.start ≤ t.start ∧ t.start ≤ iv.stop) (h2 : P t.stop ∨ iv.start ≤ t.stop ∧ t.stop ≤ iv.stop)
    (h : t.stop ≤ iv.start ∨ iv.stop ≤ t.start) : P t.start ∧ P t.stop := by
  constructor
  · rcases h1 with h1 | h1
    · exact h1
    · have : t.start = iv.stop := by omega
      rw [this]; exact he
  · rcases h2 with h2 | h2
    · exact h2
    · have : t.stop = iv.start := by omega
      rw [this]; exact hs

theorem addLoop_ends {P : Nat → Prop} {iv : Interval} (hiv : iv.start < iv.stop) (hs : P iv.start) (he : P iv.stop) (ts : List Interval) :
    ∀ (new : Option Interval) (work : List Interval), Gapped ts →
      (∀ t ∈ ts, (P t.start ∨ iv.start ≤ t.start ∧ t.start ≤ iv.stop) ∧ (P t.stop ∨ iv.start ≤ t.stop ∧ t.stop ≤ iv.stop)) →
      (∀ t ∈ work, t.start < t.stop ∧ P t.start ∧ P t.stop) →
      (∀ n, new = some n → n.start ≤ iv.start ∧ iv.stop ≤ n.stop ∧ P n.start ∧ P n.stop ∧ ∀ t ∈ ts, iv.start < t.stop) →
      (new = none → ∀ t ∈ ts, iv.stop ≤ t.start) →
    ∀ t ∈ addLoop ts new work, t.start < t.stop ∧ P t.start ∧ P t.stop := by
  induction ts with
  | nil =>
    intro new work _ _ hw hn _
    cases new with
    | none => simpa [addLoop] using hw
    | some n =>
      obtain ⟨h1, h2, h3, h4, -⟩ := hn n rfl
      intro t ht
      simp only [addLoop, List.mem_append, List.mem_singleton] at ht
      rcases ht with ht | rfl
      · exact hw t ht
      · exact ⟨by omega, h3, h4⟩
  | cons t ts ih =>
    intro new work hg hts hw hn hnone
    obtain ⟨g1, g2⟩ := hg
    rw [List.pairwise_cons] at g1
    have ht := g2 t (by simp)
    have hg' : Gapped ts := ⟨g1.2, fun x hx => g2 x (by simp [hx])⟩
    have hts' := fun x hx => hts x (List.mem_cons_of_mem _ hx)
    obtain ⟨t1, t2⟩ := hts t (by simp)
    cases new with
    | none =>
      have h1 := hnone rfl t (by simp)
      obtain ⟨p1, p2⟩ := apart_ends hs he ht t1 t2 (.inr h1)
      rw [addLoop]
      refine ih none _ hg' hts' ?_ (by simp) (fun _ x hx => hnone rfl x (by simp [hx]))
      intro x hx
      rw [List.mem_append] at hx
      rcases hx with hx | hx
      · exact hw x hx
      · simp at hx; subst hx; exact ⟨ht, p1, p2⟩
    | some n =>
      obtain ⟨h1, h2, h3, h4, h5⟩ := hn n rfl
      rw [addLoop]
      cases hm : !(t.intersect n).isEmpty with
      | true =>
        simp only [if_true]
        refine ih _ _ hg' hts' hw ?_ (by simp)
        intro m hmm
        cases hmm
        have hu : t.union n = ⟨min t.start n.start, max t.stop n.stop⟩ := by
          simp only [Interval.union]
          rw [if_neg (by simp [Interval.isEmpty]; omega), if_neg (by simp [Interval.isEmpty]; omega)]
        rw [hu]
        refine ⟨by show min t.start n.start ≤ _; omega, by show _ ≤ max t.stop n.stop; omega, ?_, ?_, fun x hx => h5 x (by simp [hx])⟩
        · show P (min t.start n.start)
          rcases Nat.lt_or_ge t.start n.start with hle | hle
          · rw [Nat.min_eq_left (by omega)]
            rcases t1 with t1 | t1
            · exact t1
            · omega
          · rw [Nat.min_eq_right hle]; exact h3
        · show P (max t.stop n.stop)
          rcases Nat.lt_or_ge n.stop t.stop with hle | hle
          · rw [Nat.max_eq_left (by omega)]
            rcases t2 with t2 | t2
            · exact t2
            · omega
          · rw [Nat.max_eq_right hle]; exact h4
      | false =>
        simp only [Bool.false_eq_true, if_false]
        rw [not_meet ht (by omega)] at hm
        have h5t := h5 t (by simp)
        have h6 : iv.stop ≤ t.start := by omega
        obtain ⟨p1, p2⟩ := apart_ends hs he ht t1 t2 (.inr h6)
        refine ih none _ hg' hts' ?_ (by simp) ?_
        · intro x hx
          rw [List.mem_append] at hx
          rcases hx with hx | hx
          · exact hw x hx
          · simp only [List.mem_cons, List.not_mem_nil, or_false] at hx
            rcases hx with rfl | rfl
            · exact ⟨by omega, h3, h4⟩
            · exact ⟨ht, p1, p2⟩
        · intro _ x hx
          have := g1.1 x hx
          omega

theorem add_ends {P : Nat → Prop} {iv : Interval} (hiv : iv.start ≤ iv.stop) (hs : P iv.start) (he : P iv.stop) {work : List Interval} (hg : Gapped work)
    (hw : ∀ t ∈ work, (P t.start ∨ iv.start ≤ t.start ∧ t.start ≤ iv.stop) ∧ (P t.stop ∨ iv.start ≤ t.stop ∧ t.stop ≤ iv.stop)) :
    ∀ t ∈ add work iv, t.start < t.stop ∧ P t.start ∧ P t.stop := by
  obtain ⟨g1, g2⟩ := hg
  unfold add
  by_cases h0 : iv.isEmpty = true
  · rw [if_pos h0]
    simp [Interval.isEmpty] at h0
    intro t ht
    obtain ⟨t1, t2⟩ := hw t ht
    refine ⟨g2 t ht, ?_, ?_⟩
    · rcases t1 with t1 | t1
      · exact t1
      · rw [show t.start = iv.start by omega]; exact hs
    · rcases t2 with t2 | t2
      · exact t2
      · rw [show t.stop = iv.start by omega]; exact hs
  · rw [if_neg h0]
    simp [Interval.isEmpty] at h0
    split
    · rename_i hn
      rw [List.findIdx?_eq_none_iff] at hn
      intro t ht
      rw [List.mem_append] at ht
      rcases ht with ht | ht
      · have hm := hn t ht
        rw [not_meet (g2 t ht) h0] at hm
        obtain ⟨t1, t2⟩ := hw t ht
        exact ⟨g2 t ht, apart_ends hs he (g2 t ht) t1 t2 hm⟩
      · simp at ht; subst ht; exact ⟨h0, hs, he⟩
    · rename_i idx hidx
      rw [List.findIdx?_eq_some_iff_getElem] at hidx
      obtain ⟨i1, i2, i3⟩ := hidx
      apply addLoop_ends h0 hs he
      · exact ⟨g1.sublist (List.drop_sublist _ _), fun x hx => g2 x (List.mem_of_mem_drop hx)⟩
      · exact fun x hx => hw x (List.mem_of_mem_drop hx)
      · intro t ht
        obtain ⟨j, j1, rfl⟩ := List.mem_iff_getElem.1 ht
        rw [List.length_take] at j1
        rw [List.getElem_take]
        have hm := i3 j (by omega)
        rw [Bool.not_eq_true, not_meet (g2 _ (List.getElem_mem _)) h0] at hm
        obtain ⟨t1, t2⟩ := hw _ (List.getElem_mem (l := work) (n := j) (by omega))
        exact ⟨g2 _ (List.getElem_mem _), apart_ends hs he (g2 _ (List.getElem_mem _)) t1 t2 hm⟩
      · intro n hn
        cases hn
        refine ⟨Nat.le_refl _, Nat.le_refl _, hs, he, ?_⟩
        intro t ht
        have hmeet : iv.start < work[idx].stop := by
          simp [Interval.intersect, Interval.isEmpty] at i2
          omega
        obtain ⟨j, j1, rfl⟩ := List.mem_iff_getElem.1 ht
        simp at j1
        rw [List.getElem_drop]
        cases j with
        | zero => simpa using hmeet
        | succ j =>
          have h1 := List.pairwise_iff_getElem.1 g1 idx (idx + (j + 1)) i1 (by omega) (by omega)
          have h2 := g2 _ (List.getElem_mem (l := work) (n := idx + (j + 1)) (by omega))
          omega
      · intro h; cases h

/-- The ends of the tasks after an edit: line boundaries, or in the lines that were
edited (`p..q`). -/
theorem shiftTask_ends {old new : List UInt8} {iv : Interval} {N p q : Nat} (he : Edited old new iv.start iv.stop N) (hp : p ≤ iv.start) (hq : iv.start + N ≤ q)
    {t : Interval} (ht : t.start < t.stop ∧ t.stop ≤ old.length ∧ Edge old t.start ∧ Edge old t.stop) {l : List Interval}
    (h : shiftTask iv N t = some l) : ∀ x ∈ l, (Edge new x.start ∨ p ≤ x.start ∧ x.start ≤ q) ∧ (Edge new x.stop ∨ p ≤ x.stop ∧ x.stop ≤ q) := by
  obtain ⟨t1, t2, t3, t4⟩ := ht
  have hst := he.st
  have hle := he.le
  have hlen := he.len
  have hsz : iv.size = some (iv.stop - iv.start) := by simp [Interval.size, hst]
  have hleft : ∀ k, k ≤ iv.start → k < old.length → Edge old k → Edge new k := by
    intro k k1 k2 k3
    rcases k3 with k3 | k3 | k3
    · exact .inl k3
    · omega
    · exact .inr (.inr ((he.boundary_left k1).2 k3))
  have hright : ∀ k, 0 < k → Edge old (iv.stop + k) → Edge new (iv.start + N + k) := by
    intro k k1 k3
    rcases k3 with k3 | k3 | k3
    · omega
    · exact .inr (.inl (by omega))
    · exact .inr (.inr ((he.boundary_right k1).2 k3))
  unfold shiftTask at h
  split at h
  · rename_i h1
    simp only [Interval.isBefore, decide_eq_true_eq] at h1
    simp only [Option.pure_def, Option.some.injEq] at h
    subst h
    simp only [List.mem_singleton, forall_eq]
    refine ⟨.inl (hleft _ (by omega) (by omega) t3), ?_⟩
    by_cases hlt : t.stop < old.length
    · exact .inl (hleft _ h1 hlt t4)
    · exact .inr (by omega)
  · rename_i h1
    simp only [Interval.isBefore, decide_eq_true_eq] at h1
    split at h
    · rename_i h2
      simp only [Interval.contains, Bool.and_eq_true, decide_eq_true_eq] at h2
      simp only [hsz, Interval.new, Option.bind_eq_bind, Option.bind_some] at h
      rw [if_pos (by omega)] at h
      simp only [Option.bind_some, Option.pure_def, Option.some.injEq] at h
      subst h
      simp only [List.mem_cons, List.not_mem_nil, or_false, forall_eq_or_imp, forall_eq, Interval.pre]
      refine ⟨⟨.inl ?_, .inr (by omega)⟩, .inr (by omega), ?_⟩
      · rw [Nat.min_eq_left (by omega)]
        exact hleft _ h2.1 (by omega) t3
      · by_cases hlt : iv.stop < t.stop
        · left
          have := hright (t.stop - iv.stop) (by omega) (by rw [show iv.stop + (t.stop - iv.stop) = t.stop by omega]; exact t4)
          rwa [show iv.start + N + (t.stop - iv.stop) = max iv.start (t.stop + N - (iv.stop - iv.start)) by omega] at this
        · right; omega
    · rename_i h2
      simp only [Interval.contains, Bool.and_eq_true, decide_eq_true_eq] at h2
      simp only [hsz, Option.bind_eq_bind, Option.bind_some] at h
      rw [translateNeg_some (by simp only [Interval.translate, Interval.suf]; omega) (by simp only [Interval.translate, Interval.suf]; omega)] at h
      simp only [Option.bind_some, Option.pure_def, Option.some.injEq, Interval.translate, Interval.suf] at h
      subst h
      simp only [List.mem_singleton, forall_eq]
      constructor
      · by_cases hlt : iv.stop < t.start
        · left
          have := hright (t.start - iv.stop) (by omega) (by rw [show iv.stop + (t.start - iv.stop) = t.start by omega]; exact t3)
          rwa [show iv.start + N + (t.start - iv.stop) = max t.start iv.stop + N - (iv.stop - iv.start) by omega] at this
        · right; omega
      · by_cases hlt : iv.stop < t.stop
        · left
          have := hright (t.stop - iv.stop) (by omega) (by rw [show iv.stop + (t.stop - iv.stop) = t.stop by omega]; exact t4)
          rwa [show iv.start + N + (t.stop - iv.stop) = max t.stop iv.stop + N - (iv.stop - iv.start) by omega] at this
        · right; omega

theorem patchup_ends {old new : List UInt8} {iv : Interval} {N p q : Nat} (he : Edited old new iv.start iv.stop N) (hp : p ≤ iv.start) (hq : iv.start + N ≤ q)
    {work work' : List Interval} (ho : InOrder work)
    (ht : ∀ t ∈ work, t.start < t.stop ∧ t.stop ≤ old.length ∧ Edge old t.start ∧ Edge old t.stop) (h : patchup work iv N = some work') :
    Gapped work' ∧ ∀ x ∈ work', (Edge new x.start ∨ p ≤ x.start ∧ x.start ≤ q) ∧ (Edge new x.stop ∨ p ≤ x.stop ∧ x.stop ≤ q) := by
  obtain ⟨ls, e1, h1⟩ := shiftTasks_spec iv N he.st work
  obtain ⟨s1, s2⟩ := shiftTasks_starts iv N he.st work ls e1 ho
  simp only [patchup, e1, Option.bind_eq_bind, Option.bind_some, Option.pure_def, Option.some.injEq] at h
  subst h
  constructor
  · refine joinLoop_gapped _ [] ?_ ?_ ⟨by simp, by simp⟩
    · rw [List.nil_append]; exact List.Pairwise.filter _ s1
    · intro t ht
      rw [List.nil_append, List.mem_filter] at ht
      have := ht.2
      simp [Interval.isEmpty] at this
      exact this
  · refine joinLoop_ends (P := fun k => Edge new k ∨ p ≤ k ∧ k ≤ q) (Q := fun k => Edge new k ∨ p ≤ k ∧ k ≤ q) _ [] ?_
    intro x hx
    rw [List.nil_append, List.mem_filter] at hx
    obtain ⟨t, k1, l, k2, k3⟩ := s2 x hx.1
    exact shiftTask_ends he hp hq (ht t k1) k2 x k3

end WrapTasks

/-! ## The state after an edit -/

namespace LinesState

/-- The numbers that `after_edit` computes first. -/
structure EditInfo (old new : Rope) (L : LinesState) (iv : Interval) (N p q oe : Nat) (b : Breaks) (w : List Interval) : Prop where
  line1 : new.lineOfOffset iv.start = some ((new.text.take iv.start).count newline)
  line2 : old.lineOfOffset iv.stop = some ((old.text.take iv.stop).count newline)
  line3 : new.lineOfOffset (iv.start + N) = some ((new.text.take (iv.start + N)).count newline)
  off1 : old.offsetOfLine ((old.text.take iv.stop).count newline + 1) = some oe
  off2 : new.offsetOfLine ((new.text.take iv.start).count newline) = some p
  off3 : new.offsetOfLine ((new.text.take (iv.start + N)).count newline + 1) = some q
  p_le : p ≤ iv.start
  p_start : p = 0 ∨ LineBoundary new.text p
  p_count : (new.text.take p).count newline = (new.text.take iv.start).count newline
  p_gap : ∀ k, p < k → k ≤ iv.start → ¬ LineBoundary new.text k
  q_le : q ≤ new.text.length
  q_ge : iv.start + N ≤ q
  q_end : q = new.text.length ∧ (new.text.take q).count newline = (new.text.take (iv.start + N)).count newline ∨
    LineBoundary new.text q ∧ iv.start + N < q ∧ (new.text.take q).count newline = (new.text.take (iv.start + N)).count newline + 1
  oe_le : oe ≤ old.text.length
  oe_eq : oe = iv.stop + (q - (iv.start + N))
  oe_end : oe = old.text.length ∧ (old.text.take oe).count newline = (old.text.take iv.stop).count newline ∨
    LineBoundary old.text oe ∧ iv.stop < oe ∧ (old.text.take oe).count newline = (old.text.take iv.stop).count newline + 1
  edit : ∃ nb, (BreakBuilder.new.addNoBreak N).build = some nb ∧ Node.edit L.breaks iv nb = some b
  bal : b.Balanced
  text : b.text = L.breaks.text.take iv.start ++ List.replicate N false ++ L.breaks.text.drop iv.stop
  work : WrapTasks.patchup L.work iv N = some w

theorem line_end_eq {t : List UInt8} {o e e' : Nat} (h : o ≤ e) (h' : o ≤ e')
    (h1 : e = t.length ∧ (t.take e).count newline = (t.take o).count newline ∨
      LineBoundary t e ∧ o < e ∧ (t.take e).count newline = (t.take o).count newline + 1)
    (h2 : e' = t.length ∧ (t.take e').count newline = (t.take o).count newline ∨
      LineBoundary t e' ∧ o < e' ∧ (t.take e').count newline = (t.take o).count newline + 1) : e = e' := by
  have key : ∀ {e e' : Nat}, LineBoundary t e → o < e → (t.take e).count newline = (t.take o).count newline + 1 →
      LineBoundary t e' → o < e' → (t.take e').count newline = (t.take o).count newline + 1 → ¬ e < e' := by
    intro e e' a1 a2 a3 b1 b2 b3 hlt
    have h1 := count_take_hit t newline b1.1 b1.2
    have h2 := count_take_le_take t newline (o := e) (p := e' - 1) (by omega)
    omega
  have key2 : ∀ {e : Nat}, LineBoundary t e → (t.take e).count newline = (t.take o).count newline + 1 →
      (t.take t.length).count newline = (t.take o).count newline → False := by
    intro e a1 a3 b
    have := (List.getElem?_eq_some_iff.1 a1.2).1
    have := a1.1
    have h2 := count_take_le_take t newline (o := e) (p := t.length) (by omega)
    omega
  rcases h1 with ⟨rfl, h1⟩ | ⟨a1, a2, a3⟩ <;> rcases h2 with ⟨rfl, h2⟩ | ⟨b1, b2, b3⟩
  · rfl
  · exact (key2 b1 b3 h1).elim
  · exact (key2 a1 a3 h2).elim
  · rcases Nat.lt_trichotomy e e' with h | h | h
    · exact absurd h (key a1 a2 a3 b1 b2 b3)
    · exact h
    · exact absurd h (key b1 b2 b3 a1 a2 a3)

theorem edited_count_right {old new : List UInt8} {S T N : Nat} (he : Edited old new S T N) (k : Nat) :
    (new.take (S + N + k)).count newline + (old.take T).count newline = (new.take (S + N)).count newline + (old.take (T + k)).count newline := by
  rw [List.take_add, List.take_add (l := old), List.count_append, List.count_append, he.right]
  omega

theorem editInfo {old new : Rope} {L : LinesState} {iv : Interval} {N : Nat} (ha : Agree old L.breaks) (hb : new.Balanced)
    (he : Edited old.text new.text iv.start iv.stop N) (c1 : CharBoundary old.text iv.start) (c2 : CharBoundary old.text iv.stop) :
    ∃ p q oe b w, EditInfo old new L iv N p q oe b w := by
  have uo := Rope.text_utf8 ha.text
  have un := Rope.text_utf8 hb
  have d1 := he.char_left uo un (Nat.le_refl _) c1
  have d2 := he.char_right uo un (k := 0) (by simpa using c2)
  rw [Nat.add_zero] at d2
  have hst := he.st
  have hle := he.le
  have hlen := he.len
  obtain ⟨l, p, f1, rfl, f3, f4, f5, f6, f7⟩ := lineStart_spec hb d1 (by omega)
  obtain ⟨q, g1, g2, g3, g4⟩ := lineNext_spec hb (o := iv.start + N) (by omega)
  obtain ⟨oe, k1, k2, k3, k4⟩ := lineNext_spec ha.text (o := iv.stop) (by omega)
  obtain ⟨nb, n1, n2, n3⟩ := (BreakBuilder.text_new.noBreak N).build
  rw [List.nil_append] at n3
  have hl := ha.len
  obtain ⟨b, b1, b2, b3⟩ := Node.edit_spec (iv := iv) ha.breaks n2 (cut_breaks (by omega)) (cut_breaks (by omega))
  obtain ⟨w, w1, -⟩ := C48_after_edit L.work iv N hst
  refine ⟨p, q, oe, b, w, f1, Rope.lineOfOffset_spec ha.text c2, Rope.lineOfOffset_spec hb d2, k1, f3, g1, f4, f5, f6, f7, g2, g3, g4, k2, ?_, k4,
    ⟨nb, n1, b1⟩, b3, by rw [b2, n3], w1⟩
  refine line_end_eq k3 (by omega) k4 ?_
  obtain ⟨m, rfl⟩ : ∃ m, q = iv.start + N + m := ⟨q - (iv.start + N), by omega⟩
  have hc := edited_count_right he m
  rw [Nat.add_sub_cancel_left]
  rcases g4 with ⟨h1, h2⟩ | ⟨h1, h2, h3⟩
  · exact .inl ⟨by omega, by omega⟩
  · exact .inr ⟨(he.boundary_right (by omega)).1 h1, by omega, by omega⟩

theorem EditInfo.agree {old new : Rope} {L : LinesState} {iv : Interval} {N p q oe : Nat} {b : Breaks} {w : List Interval}
    (h : EditInfo old new L iv N p q oe b w) (ha : Agree old L.breaks) (hb : new.Balanced) (he : Edited old.text new.text iv.start iv.stop N) :
    Agree new b := by
  have hst := he.st
  have hle := he.le
  have hlen := he.len
  have hl := ha.len
  have hbr : ∀ k, BreakAt b.text k ↔ k ≤ iv.start ∧ BreakAt L.breaks.text k ∨
      iv.start + N < k ∧ BreakAt L.breaks.text (iv.stop + (k - (iv.start + N))) := by
    intro k; rw [h.text, breakAt_blanked hst (by omega)]
  refine ⟨hb, h.bal, by rw [h.text]; simp; omega, ?_, ?_⟩
  · intro k hk hbk
    rcases (hbr k).1 hbk with ⟨h1, h2⟩ | ⟨h1, h2⟩
    · exact ha.apart k ((he.boundary_left h1).1 hk) h2
    · refine ha.apart _ ((he.boundary_right (by omega)).1 ?_) h2
      rwa [show iv.start + N + (k - (iv.start + N)) = k by omega]
  · intro k hbk
    rcases (hbr k).1 hbk with ⟨h1, h2⟩ | ⟨h1, h2⟩
    · exact he.char_left (Rope.text_utf8 ha.text) (Rope.text_utf8 hb) h1 (ha.chars k h2)
    · have := he.char_right (Rope.text_utf8 ha.text) (Rope.text_utf8 hb) (ha.chars _ h2)
      rwa [show iv.start + N + (k - (iv.start + N)) = k by omega] at this

theorem EditInfo.inv {old new : Rope} {L : LinesState} {iv : Interval} {N p q oe : Nat} {b : Breaks} {w : List Interval}
    (h : EditInfo old new L iv N p q oe b w) (hi : L.Inv rule old) (hb : new.Balanced) (he : Edited old.text new.text iv.start iv.stop N)
    (hwr : L.wraps = true) (ho : InOrder L.work) : Inv rule new { L with breaks := b, work := WrapTasks.add w ⟨p, q⟩ } := by
  have ha := hi.agree
  have hst := he.st
  have hle := he.le
  have hlen := he.len
  have hl := ha.len
  have hpl := h.p_le
  have hql := h.q_le
  have hqg := h.q_ge
  refine ⟨h.agree ha hb he, fun _ => ?_, fun _ k h0 hp => ?_, fun hf => ?_⟩
  · obtain ⟨g1, g2⟩ := WrapTasks.patchup_ends he hpl hqg ho (hi.tasks hwr) h.work
    have hps : Edge new.text p := h.p_start.elim .inl (fun h => .inr (.inr h))
    have hqs : Edge new.text q := h.q_end.elim (fun h => .inr (.inl h.1)) (fun h => .inr (.inr h.1))
    intro t ht
    obtain ⟨t1, t2, t3⟩ := WrapTasks.add_ends (iv := ⟨p, q⟩) (by show p ≤ q; omega) hps hqs g1 g2 t ht
    exact ⟨t1, edge_le t3, t2, t3⟩
  · rw [C48_add_task] at hp
    have hw := h.work
    obtain ⟨w', e1, e2⟩ := C48_after_edit L.work iv N hst
    rw [hw] at e1
    cases e1
    simp only [Interval.Has] at hp
    show BreakAt b.text k ↔ _
    rw [h.text, breakAt_blanked hst (by omega)]
    by_cases hk : k ≤ p
    · have hnp : ¬ Pending L.work (k - 1) := fun hp' =>
        hp (.inl (e2 _ (.inl ⟨k - 1, hp', .inl ⟨by omega, rfl⟩⟩)))
      have h1 := hi.done hwr k h0 hnp
      rw [he.soft_before hpl h.p_start hk, ← h1]
      constructor
      · rintro (⟨-, h2⟩ | ⟨h2, -⟩)
        · exact h2
        · omega
      · intro h2; exact .inl ⟨by omega, h2⟩
    · have hkq : q < k := by
        apply Classical.byContradiction
        intro hn
        exact hp (.inr ⟨by omega, by omega⟩)
      obtain ⟨m, rfl⟩ : ∃ m, k = iv.start + N + m := ⟨k - (iv.start + N), by omega⟩
      rw [Nat.add_sub_cancel_left]
      have hnp : ¬ Pending L.work (iv.stop + m - 1) := fun hp' =>
        hp (.inl (e2 _ (.inl ⟨iv.stop + m - 1, hp', .inr ⟨by omega, by omega⟩⟩)))
      have h1 := hi.done hwr _ (by omega) hnp
      have h2 : (iv.start + N + m ≤ iv.start ∧ BreakAt L.breaks.text (iv.start + N + m) ∨
          iv.start + N < iv.start + N + m ∧ BreakAt L.breaks.text (iv.stop + m)) ↔ BreakAt L.breaks.text (iv.stop + m) := by
        constructor
        · rintro (⟨h2, -⟩ | ⟨-, h2⟩)
          · omega
          · exact h2
        · intro h2; exact .inr ⟨by omega, h2⟩
      rw [h2, h1]
      rcases h.q_end with ⟨h3, -⟩ | ⟨h3, h4, -⟩
      · constructor
        · intro hs; have := hs.pos; omega
        · intro hs; have := hs.pos; omega
      · have := he.soft_after (rule := rule) (p := q - (iv.start + N)) (by rw [show iv.start + N + (q - (iv.start + N)) = q by omega]; exact h3)
          (by omega) (k := m) (by omega)
        exact this.symm
  · change L.wraps = false at hf
    rw [hwr] at hf; cases hf

/-- The result of `after_edit` in terms of these numbers. -/
def editResult (rule : WrapRule) (old new : Rope) (L : LinesState) (iv : Interval) (N p q oe : Nat) (b : Breaks) (w : List Interval) (vis vis' : Nat) :
    Option (LinesState × Option InvalLines) :=
  let l := (new.text.take iv.start).count newline
  let oldHard := (old.text.take iv.stop).count newline + 1 - l
  let newHard := (new.text.take (iv.start + N)).count newline + 1 - l
  let invalSoft := (L.breaks.text.take oe).count true - (L.breaks.text.take p).count true
  if L.wraps = false then some (⟨b, L.wraps, w⟩, some ⟨l, oldHard, newHard⟩)
  else if (WrapTasks.add w ⟨p, q⟩).isEmpty = false then
    (doWrapTask rule ⟨b, L.wraps, WrapTasks.add w ⟨p, q⟩⟩ new new.text vis vis').bind (fun x =>
      if x.1.isConverged then some (x.1, some ⟨x.2.startLine, oldHard + invalSoft, newHard + x.2.newSoft⟩) else some (x.1, none))
  else some (⟨b, L.wraps, WrapTasks.add w ⟨p, q⟩⟩, none)

theorem EditInfo.result {old new : Rope} {L : LinesState} {iv : Interval} {N p q oe : Nat} {b : Breaks} {w : List Interval}
    (h : EditInfo old new L iv N p q oe b w) (ha : Agree old L.breaks) (he : Edited old.text new.text iv.start iv.stop N) (vis vis' : Nat) :
    afterEdit rule L new old new.text iv N vis vis' = editResult rule old new L iv N p q oe b w vis vis' := by
  have hst := he.st
  have hle := he.le
  have hlen := he.len
  have hl := ha.len
  have hpl := h.p_le
  have hoe := h.oe_le
  have hoe' := h.oe_eq
  have hql := h.q_le
  have hqg := h.q_ge
  obtain ⟨nb, n1, n2⟩ := h.edit
  have c1 : (new.text.take iv.start).count newline ≤ (old.text.take iv.stop).count newline + 1 := by
    rw [he.left]
    have := count_take_le_take old.text newline hst
    omega
  have c2 : (new.text.take iv.start).count newline ≤ (new.text.take (iv.start + N)).count newline + 1 := by
    have := count_take_le_take new.text newline (o := iv.start) (p := iv.start + N) (by omega)
    omega
  have c3 := count_take_le_take L.breaks.text true (o := p) (p := oe) (by omega)
  unfold afterEdit editResult
  simp only [h.line1, h.line2, h.line3, h.off1, h.off2, h.off3, Option.bind_eq_bind, Option.bind_some, checkedSub, c1, c2, if_true,
    Breaks.count_spec ha.breaks (off := p) (by omega), Breaks.count_spec ha.breaks (off := oe) (by omega), c3, n1, n2, h.work]
  by_cases hw : L.wraps = false
  · simp [hw]
  · have hpq : p ≤ q := by omega
    rw [if_neg hw, if_neg hw]
    simp only [Interval.new, hpq, if_true, Option.bind_some]
    split
    · congr 1
    · rfl

end LinesState

end Xi
