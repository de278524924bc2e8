import Verif.Rope.DiffLemmas

/-!
# The longest increasing subsequence
-/

namespace Xi

namespace Diff

/-- The key of an index. -/
def kf (items : List (Nat × Nat)) (j : Nat) : Nat := (key items j).getD 0

theorem key_kf {items : List (Nat × Nat)} {j : Nat} (h : j < items.length) : key items j = some (kf items j) := by
  obtain ⟨k, hk⟩ := key_some h
  simp [kf, hk]

/-- Walking back from `v` along `prev_chain` goes through `k` more indices, down in
index and key. -/
def LisChain (items : List (Nat × Nat)) (prev : List Nat) : Nat → Nat → Prop
  | 0, _ => True
  | k + 1, v => ∃ w, prev[v]? = some w ∧ w < v ∧ kf items w < kf items v ∧ LisChain items prev k w

theorem LisChain.set {items : List (Nat × Nat)} {prev : List Nat} {i x : Nat} (k : Nat) : ∀ {v}, v < i → LisChain items prev k v → LisChain items (prev.set i x) k v := by
  induction k with
  | zero => intros; trivial
  | succ k ih =>
    rintro v hv ⟨w, h1, h2, h3, h4⟩
    exact ⟨w, by rw [List.getElem?_set_ne (by omega)]; exact h1, h2, h3, ih (by omega) h4⟩

/-- The state of `longest_increasing_region_set` after the first `i` items. -/
structure LisInv (items : List (Nat × Nat)) (i : Nat) (st : LisState) : Prop where
  ok : LisOk items.length st
  below : ∀ j ∈ st.result, j < i
  sorted : ∀ {a b j j' : Nat}, st.result[a]? = some j → st.result[b]? = some j' → a < b → kf items j < kf items j'
  chain : ∀ {k j : Nat}, st.result[k]? = some j → LisChain items st.prevChain k j
  best : ∀ {s : List (Nat × Nat)} {x : Nat × Nat}, s.Sublist (items.take i) → s.Pairwise (fun a b => a.2 < b.2) → s.getLast? = some x →
    ∃ j, st.result[s.length - 1]? = some j ∧ kf items j ≤ x.2

theorem takeWhile_at {ks : List Nat} {p : Nat → Bool} :
    (∀ {a k : Nat}, a < (ks.takeWhile p).length → ks[a]? = some k → p k = true) ∧
    (∀ {k : Nat}, ks[(ks.takeWhile p).length]? = some k → p k = false) := by
  induction ks with
  | nil => simp
  | cons x ks ih =>
    obtain ⟨ih1, ih2⟩ := ih
    rw [List.takeWhile_cons]
    by_cases hx : p x = true
    · simp only [hx, if_true, List.length_cons]
      refine ⟨?_, fun h => ih2 (by simpa using h)⟩
      intro a k ha hk
      cases a with
      | zero => simp at hk; rw [← hk]; exact hx
      | succ a => exact ih1 (a := a) (by omega) (by simpa using hk)
    · simp only [Bool.not_eq_true] at hx
      simp only [hx]
      refine ⟨by simp, ?_⟩
      intro k hk
      simp at hk
      rw [← hk]; exact hx

/-- What a round must do for the best-so-far property to survive. -/
theorem best_step {items : List (Nat × Nat)} {i : Nat} (hi : i < items.length) {st st' : LisState} (h : LisInv items i st)
    (h1 : ∀ {a j : Nat}, st.result[a]? = some j → ∃ j', st'.result[a]? = some j' ∧ kf items j' ≤ kf items j)
    (h2 : ∀ {a : Nat}, (∀ b, a = b + 1 → ∃ j, st.result[b]? = some j ∧ kf items j < kf items i) → ∃ j, st'.result[a]? = some j ∧ kf items j ≤ kf items i) :
    ∀ {s : List (Nat × Nat)} {x : Nat × Nat}, s.Sublist (items.take (i + 1)) → s.Pairwise (fun a b => a.2 < b.2) → s.getLast? = some x →
      ∃ j, st'.result[s.length - 1]? = some j ∧ kf items j ≤ x.2 := by
  intro s x hs hp hx
  rw [List.take_add_one, List.getElem?_eq_getElem hi] at hs
  simp only [Option.toList_some] at hs
  obtain ⟨s1, s2, rfl, hs1, hs2⟩ := List.sublist_append_iff.1 hs
  have hki : kf items i = items[i].2 := by simp [kf, key, List.getElem?_eq_getElem hi]
  have hs2 : s2 = [] ∨ s2 = [items[i]] := by
    cases s2 with
    | nil => exact .inl rfl
    | cons y s2 =>
      right
      have hl := hs2.length_le
      have hy : y ∈ [items[i]] := hs2.subset (by simp)
      simp at hl hy
      rw [hy, hl]
  rcases hs2 with rfl | rfl
  · rw [List.append_nil] at hp hx ⊢
    obtain ⟨j, g1, g2⟩ := h.best hs1 hp hx
    obtain ⟨j', g3, g4⟩ := h1 g1
    exact ⟨j', g3, by omega⟩
  · rw [List.getLast?_concat] at hx
    cases hx
    rw [List.length_append, List.length_singleton, Nat.add_sub_cancel, ← hki]
    apply h2
    intro b hb
    obtain ⟨y, hy⟩ : ∃ y, s1.getLast? = some y := by
      refine ⟨_, List.getLast?_eq_some_getLast ?_⟩
      intro h0
      subst h0
      simp at hb
    rw [List.pairwise_append] at hp
    obtain ⟨j, g1, g2⟩ := h.best hs1 hp.1 hy
    rw [hb, Nat.add_sub_cancel] at g1
    have := hp.2.2 y (List.mem_of_getLast? hy) items[i] (by simp)
    exact ⟨j, g1, by omega⟩

theorem lisStep_inv {items : List (Nat × Nat)} {st : LisState} {i : Nat} (h : LisInv items i st) (hi : i < items.length) :
    ∃ st', lisStep items st i = some st' ∧ LisInv items (i + 1) st' := by
  obtain ⟨st', e, hok⟩ := lisStep_ok h.ok hi
  refine ⟨st', e, ?_⟩
  obtain ⟨last, hlast⟩ : ∃ x, st.result.getLast? = some x := ⟨_, List.getLast?_eq_some_getLast h.ok.nonempty⟩
  have hll : st.result[st.result.length - 1]? = some last := by rw [← List.getLast?_eq_getElem?]; exact hlast
  have hpos : 0 < st.result.length := List.length_pos_iff.2 h.ok.nonempty
  have hkl := key_kf (h.ok.result _ (List.mem_of_getLast? hlast))
  have hki := key_kf hi
  have hmax : ∀ {a j : Nat}, st.result[a]? = some j → kf items j ≤ kf items last := by
    intro a j ha
    have hal := (List.getElem?_eq_some_iff.1 ha).1
    by_cases hae : a = st.result.length - 1
    · subst hae; rw [hll] at ha; cases ha; exact Nat.le_refl _
    · exact Nat.le_of_lt (h.sorted ha hll (by omega))
  unfold lisStep at e
  simp only [hlast, hkl, hki, Option.bind_eq_bind, Option.bind_some, Option.pure_def] at e
  by_cases hlt : kf items last < kf items i
  · rw [if_pos hlt] at e
    cases e
    refine ⟨hok, ?_, ?_, ?_, ?_⟩
    · intro j hj
      rw [List.mem_append, List.mem_singleton] at hj
      rcases hj with hj | rfl
      · have := h.below j hj; omega
      · omega
    · intro a b j j' ha hb hab
      simp only [List.getElem?_append, List.getElem?_singleton] at ha hb
      split at hb
      · rw [if_pos (by omega)] at ha
        exact h.sorted ha hb hab
      · split at hb
        · cases hb
          rw [if_pos (by omega)] at ha
          exact Nat.lt_of_le_of_lt (hmax ha) hlt
        · cases hb
    · intro k j hk
      simp only [List.getElem?_append, List.getElem?_singleton] at hk
      split at hk
      · exact (h.chain hk).set k (h.below j (List.mem_of_getElem? hk))
      · split at hk
        · cases hk
          have hke : k = (st.result.length - 1) + 1 := by omega
          rw [hke]
          refine ⟨last, ?_, h.below _ (List.mem_of_getLast? hlast), hlt, (h.chain hll).set _ (h.below _ (List.mem_of_getLast? hlast))⟩
          rw [List.getElem?_set_self (by rw [h.ok.length]; exact hi)]
        · cases hk
    · apply best_step hi h
      · intro a j ha
        exact ⟨j, by rw [List.getElem?_append_left (List.getElem?_eq_some_iff.1 ha).1]; exact ha, Nat.le_refl _⟩
      · intro a ha
        by_cases hal : a < st.result.length
        · refine ⟨st.result[a], by rw [List.getElem?_append_left hal, List.getElem?_eq_getElem hal], ?_⟩
          have := hmax (List.getElem?_eq_getElem hal)
          omega
        · cases a with
          | zero => omega
          | succ b =>
            obtain ⟨j, g1, g2⟩ := ha b rfl
            have := (List.getElem?_eq_some_iff.1 g1).1
            refine ⟨i, ?_, Nat.le_refl _⟩
            rw [List.getElem?_append_right (by omega), show b + 1 - st.result.length = 0 from by omega]
            rfl
  · rw [if_neg hlt] at e
    obtain ⟨ks, ek, hl, hg⟩ := mapM_key st.result h.ok.result
    have hgk : ∀ {a j : Nat}, st.result[a]? = some j → ks[a]? = some (kf items j) := by
      intro a j ha
      rw [hg, ha]
      exact key_kf (h.ok.result j (List.mem_of_getElem? ha))
    unfold lisReplace at e
    simp only [ek, Option.bind_eq_bind, Option.bind_some] at e
    unfold binarySearch at e
    by_cases hm : kf items i ∈ ks
    · rw [if_pos hm] at e
      cases e
      refine ⟨h.ok, fun j hj => by have := h.below j hj; omega, h.sorted, h.chain, ?_⟩
      apply best_step hi h
      · intro a j ha; exact ⟨j, ha, Nat.le_refl _⟩
      · intro a ha
        obtain ⟨m, hmk⟩ := List.getElem?_of_mem hm
        have hml : m < st.result.length := by rw [← hl]; exact (List.getElem?_eq_some_iff.1 hmk).1
        have hmr := List.getElem?_eq_getElem hml
        have hme : kf items st.result[m] = kf items i := by
          have := hgk hmr
          rw [hmk] at this
          exact (Option.some.inj this).symm
        have ham : a ≤ m := by
          cases a with
          | zero => omega
          | succ b =>
            obtain ⟨j, g1, g2⟩ := ha b rfl
            apply Nat.lt_of_not_le
            intro hmb
            rcases Nat.lt_or_eq_of_le hmb with hmb | hmb
            · have := h.sorted hmr g1 hmb
              omega
            · subst hmb
              rw [hmr] at g1
              cases g1
              omega
        have har := List.getElem?_eq_getElem (Nat.lt_of_le_of_lt ham hml)
        refine ⟨_, har, ?_⟩
        rcases Nat.lt_or_eq_of_le ham with hlt2 | heq
        · have := h.sorted har hmr hlt2; omega
        · subst heq; omega
    · rw [if_neg hm] at e
      simp only at e
      obtain ⟨t1, t2⟩ := takeWhile_at (ks := ks) (p := fun x => decide (x < kf items i))
      have hlen : (ks.takeWhile (fun x => decide (x < kf items i))).length < st.result.length := by
        apply Nat.lt_of_not_le
        intro hle
        have := t1 (a := st.result.length - 1) (by omega) (hgk hll)
        simp at this
        exact hlt this
      generalize hnx : (ks.takeWhile (fun x => decide (x < kf items i))).length = nx at hlen t1 t2 e
      have hr := List.getElem?_eq_getElem hlen
      rw [hr] at e
      have hkn := key_kf (h.ok.result _ (List.getElem_mem hlen))
      simp only [Option.bind_some, hkn] at e
      have hge : kf items i < kf items st.result[nx] := by
        have h3 := t2 (hgk hr)
        have h4 : kf items st.result[nx] ∈ ks := List.mem_of_getElem? (hgk hr)
        have h5 : kf items st.result[nx] ≠ kf items i := by
          intro heq; rw [heq] at h4; exact hm h4
        simp at h3
        omega
      have hbelow : ∀ {a j : Nat}, a < nx → st.result[a]? = some j → kf items j < kf items i := by
        intro a j ha hj
        have := t1 ha (hgk hj)
        simpa using this
      rw [if_pos hge] at e
      have key : ∀ chain', (∀ {k j : Nat}, st.result[k]? = some j → LisChain items chain' k j) → LisChain items chain' nx i →
          LisOk items.length ⟨st.result.set nx i, chain'⟩ → LisInv items (i + 1) ⟨st.result.set nx i, chain'⟩ := by
        intro chain' c1 c2 hok
        refine ⟨hok, ?_, ?_, ?_, ?_⟩
        · intro j hj
          rcases mem_set hj with hj | rfl
          · have := h.below j hj; omega
          · omega
        · intro a b j j' ha hb hab
          simp only [List.getElem?_set, hlen, if_true] at ha hb
          split at ha
          · cases ha
            rw [if_neg (by omega)] at hb
            have := h.sorted hr hb (by omega)
            omega
          · split at hb
            · cases hb
              exact hbelow (by omega) ha
            · exact h.sorted ha hb hab
        · intro k j hk
          simp only [List.getElem?_set, hlen, if_true] at hk
          split at hk
          · cases hk
            rename_i e1
            rw [← e1]; exact c2
          · exact c1 hk
        · apply best_step hi h
          · intro a j ha
            simp only [List.getElem?_set]
            by_cases hna : nx = a
            · subst hna
              rw [hr] at ha
              cases ha
              exact ⟨i, by simp [hlen], Nat.le_of_lt hge⟩
            · exact ⟨j, by rw [if_neg hna]; exact ha, Nat.le_refl _⟩
          · intro a ha
            have han : a ≤ nx := by
              cases a with
              | zero => omega
              | succ b =>
                obtain ⟨j, g1, g2⟩ := ha b rfl
                apply Nat.lt_of_not_le
                intro hmb
                rcases Nat.lt_or_eq_of_le hmb with hmb | hmb
                · have := h.sorted hr g1 hmb
                  omega
                · subst hmb
                  rw [hr] at g1
                  cases g1
                  omega
            rcases Nat.lt_or_eq_of_le han with hlt2 | heq
            · have har := List.getElem?_eq_getElem (Nat.lt_trans hlt2 hlen)
              exact ⟨_, by simp only [List.getElem?_set]; rw [if_neg (by omega)]; exact har, Nat.le_of_lt (hbelow hlt2 har)⟩
            · subst heq
              exact ⟨i, by simp [hlen], Nat.le_refl _⟩
      by_cases hp : nx > 0
      · rw [if_pos hp, List.getElem?_eq_getElem (by omega : nx - 1 < st.result.length)] at e
        have hprev := List.getElem?_eq_getElem (by omega : nx - 1 < st.result.length)
        cases e
        have hpi := h.below _ (List.mem_of_getElem? hprev)
        refine key _ (fun hk => (h.chain hk).set _ (h.below _ (List.mem_of_getElem? hk))) ?_ hok
        have hne : nx = (nx - 1) + 1 := by omega
        have : LisChain items (st.prevChain.set i st.result[nx - 1]) ((nx - 1) + 1) i :=
          ⟨_, by rw [List.getElem?_set_self (by rw [h.ok.length]; exact hi)], hpi, hbelow (by omega) hprev, (h.chain hprev).set _ hpi⟩
        rwa [← hne] at this
      · rw [if_neg hp] at e
        cases e
        refine key _ h.chain ?_ hok
        have : nx = 0 := by omega
        rw [this]; trivial

theorem lisLoop_inv {items : List (Nat × Nat)} (n : Nat) : ∀ (k : Nat) {st : LisState}, LisInv items k st → k + n ≤ items.length →
    ∃ st', (List.range' k n).foldlM (lisStep items) st = some st' ∧ LisInv items (k + n) st' := by
  induction n with
  | zero => intro k st h _; exact ⟨st, rfl, h⟩
  | succ n ih =>
    intro k st h hk
    obtain ⟨st1, e1, h1⟩ := lisStep_inv h (by omega)
    obtain ⟨st2, e2, h2⟩ := ih (k + 1) h1 (by omega)
    exact ⟨st2, by simp [List.range'_succ, List.foldlM_cons, e1, e2], by rw [show k + (n + 1) = k + 1 + n from by omega]; exact h2⟩

theorem lisWalk_chain {items : List (Nat × Nat)} {prev : List Nat} (u : Nat) : ∀ {v}, LisChain items prev u v → v < prev.length → (∀ j ∈ prev, j < prev.length) →
    ∃ w, lisWalk prev (u + 1) v = some w ∧ w.length = u + 1 ∧ w.Pairwise (fun a b => b < a ∧ kf items b < kf items a) ∧
      ∀ j ∈ w, j ≤ v ∧ kf items j ≤ kf items v := by
  induction u with
  | zero =>
    intro v _ hv _
    exact ⟨[v], by simp [lisWalk, List.getElem?_eq_getElem hv], rfl, by simp, by simp⟩
  | succ u ih =>
    rintro v ⟨w, h1, h2, h3, h4⟩ hv hp
    obtain ⟨l, e, hl, hw, hb⟩ := ih h4 (hp _ (List.mem_of_getElem? h1)) hp
    refine ⟨v :: l, by rw [lisWalk]; simp [h1, e], by simp [hl], ?_, ?_⟩
    · rw [List.pairwise_cons]
      refine ⟨fun j hj => ?_, hw⟩
      have := hb j hj
      omega
    · intro j hj
      rcases List.mem_cons.1 hj with rfl | hj
      · omega
      · have := hb j hj; omega

theorem mapM_sublist {items : List (Nat × Nat)} (l : List Nat) : ∀ (o : Nat), l.Pairwise (· < ·) → (∀ j ∈ l, o ≤ j ∧ j < items.length) →
    ∃ r, l.mapM (fun i => items[i]?) = some r ∧ r.Sublist (items.drop o) ∧ r.map Prod.snd = l.map (kf items) := by
  induction l with
  | nil => intro o _ _; exact ⟨[], rfl, by simp, rfl⟩
  | cons x l ih =>
    intro o hp hb
    rw [List.pairwise_cons] at hp
    obtain ⟨hx1, hx2⟩ := hb x (by simp)
    obtain ⟨r, e, h1, h2⟩ := ih (x + 1) hp.2 (fun j hj => ⟨hp.1 j hj, (hb j (by simp [hj])).2⟩)
    refine ⟨items[x] :: r, by simp [List.mapM_cons, List.getElem?_eq_getElem hx2, e], ?_, by simp [h2, kf, key, List.getElem?_eq_getElem hx2]⟩
    refine List.Sublist.trans ?_ (List.drop_sublist_drop_left items hx1)
    rw [List.drop_eq_getElem_cons hx2]
    exact List.Sublist.cons_cons _ h1

/-- `longest_increasing_region_set` gives a longest strictly increasing subsequence. -/
theorem longestIncreasing_spec {items : List (Nat × Nat)} (h : items ≠ []) :
    ∃ r, longestIncreasing items = some r ∧ r.Sublist items ∧ r.Pairwise (fun a b => a.2 < b.2) ∧
      ∀ s : List (Nat × Nat), s.Sublist items → s.Pairwise (fun a b => a.2 < b.2) → s.length ≤ r.length := by
  have hpos := List.length_pos_iff.2 h
  have h0 : LisInv items 1 ⟨[0], List.replicate items.length 0⟩ := by
    refine ⟨⟨by simp, by simpa using hpos, by simp, by intro j hj; rw [List.mem_replicate] at hj; omega⟩, by simp, ?_, ?_, ?_⟩
    · intro a b j j' ha hb hab
      have := (List.getElem?_eq_some_iff.1 hb).1
      simp at this; omega
    · intro k j hk
      have := (List.getElem?_eq_some_iff.1 hk).1
      have : k = 0 := by simp at this; omega
      subst this; trivial
    · intro s x hs hp hx
      have hl := hs.length_le
      rw [List.length_take] at hl
      have hs1 : s.length - 1 = 0 := by omega
      refine ⟨0, by rw [hs1]; rfl, ?_⟩
      obtain ⟨y, l, rfl⟩ := List.exists_cons_of_ne_nil h
      simp only [List.take_succ_cons, List.take_zero] at hs
      have : x ∈ [y] := hs.subset (List.mem_of_getLast? hx)
      simp at this
      rw [this]
      simp [kf, key]
  obtain ⟨st, e, hs⟩ := lisLoop_inv (items.length - 1) 1 h0 (by omega)
  rw [show 1 + (items.length - 1) = items.length from by omega] at hs
  obtain ⟨last, hlast⟩ : ∃ x, st.result.getLast? = some x := ⟨_, List.getLast?_eq_some_getLast hs.ok.nonempty⟩
  have hll : st.result[st.result.length - 1]? = some last := by rw [← List.getLast?_eq_getElem?]; exact hlast
  have hrp : 0 < st.result.length := List.length_pos_iff.2 hs.ok.nonempty
  obtain ⟨w, ew, hwl, hwp, hwb⟩ := lisWalk_chain _ (hs.chain hll) (by rw [hs.ok.length]; exact hs.ok.result _ (List.mem_of_getLast? hlast))
    (by rw [hs.ok.length]; exact hs.ok.chain)
  rw [Nat.sub_add_cancel hrp] at ew hwl
  have hrev : w.reverse.Pairwise (fun a b => a < b ∧ kf items a < kf items b) := by
    rw [List.pairwise_reverse]; exact hwp
  have hlt : ∀ j ∈ w.reverse, 0 ≤ j ∧ j < items.length := by
    intro j hj
    have h1 := (hwb j (List.mem_reverse.1 hj)).1
    have h2 := hs.ok.result _ (List.mem_of_getLast? hlast)
    omega
  obtain ⟨r, er, hr1, hr2⟩ := mapM_sublist w.reverse 0 (hrev.imp (fun h => h.1)) hlt
  have hrl : r.length = st.result.length := by
    have := congrArg List.length hr2
    simp at this; omega
  refine ⟨r, ?_, by simpa using hr1, ?_, ?_⟩
  · unfold longestIncreasing
    rw [List.range_eq_range', List.drop_range', Nat.zero_add, Nat.one_mul]
    simp only [e, hlast, ew, er, Option.bind_eq_bind, Option.bind_some]
  · have : (r.map Prod.snd).Pairwise (· < ·) := by
      rw [hr2, List.pairwise_map]
      exact hrev.imp (fun h => h.2)
    rwa [List.pairwise_map] at this
  · intro s hs1 hs2
    cases hsl : s.getLast? with
    | none => rw [List.getLast?_eq_none_iff] at hsl; subst hsl; simp
    | some x =>
      obtain ⟨j, g1, g2⟩ := hs.best (by rw [List.take_length]; exact hs1) hs2 hsl
      have := (List.getElem?_eq_some_iff.1 g1).1
      omega

/-- In every round the keys that `binary_search_by` looks at are strictly increasing. -/
theorem lis_sorted {items : List (Nat × Nat)} {i : Nat} {st : LisState} (h : LisInv items i st) :
    ∃ ks, st.result.mapM (key items) = some ks ∧ ks.Pairwise (· < ·) := by
  obtain ⟨ks, e, hl, hg⟩ := mapM_key st.result h.ok.result
  refine ⟨ks, e, ?_⟩
  rw [List.pairwise_iff_getElem]
  intro a b ha hb hab
  have h1 := hg a
  have h2 := hg b
  rw [List.getElem?_eq_getElem ha, List.getElem?_eq_getElem (by omega : a < st.result.length)] at h1
  rw [List.getElem?_eq_getElem hb, List.getElem?_eq_getElem (by omega : b < st.result.length)] at h2
  have k1 := key_kf (h.ok.result _ (List.getElem_mem (by omega : a < st.result.length)))
  have k2 := key_kf (h.ok.result _ (List.getElem_mem (by omega : b < st.result.length)))
  rw [Option.bind_some, k1] at h1
  rw [Option.bind_some, k2] at h2
  rw [Option.some.inj h1, Option.some.inj h2]
  exact h.sorted (List.getElem?_eq_getElem _) (List.getElem?_eq_getElem _) hab

end Diff

end Xi
