import Verif.Core.FindRange
import Verif.Rope.DeltaPosLemmas

/-!
# Lemmas on how highlights move with an edit
-/

namespace Xi

open Find Selection

variable {α : Type}

/-! ### Where the edit is -/

theorem transformGo_upto {b lo : Nat} {post : List (DeltaElement α)} (hpost : post = [] ∨ ∃ n, post = [.copy b n]) :
    ∀ {pre : List (DeltaElement α)}, ElsWF b lo pre → ∀ r, Delta.transformGo b false (pre ++ post) r ≤ r + (elsMask pre).length
  | [], _, r => by
    rcases hpost with rfl | ⟨n, rfl⟩ <;> simp [Delta.transformGo, elsMask]
  | .insert s :: pre, h, r => by
    have := transformGo_upto hpost h.2 (r + s.length)
    simp only [List.cons_append, Delta.transformGo]
    simp [elsMask] at this ⊢
    omega
  | .copy x y :: pre, h, r => by
    obtain ⟨h1, h2, h3⟩ := h
    have := transformGo_upto hpost h3 (r + (y - x))
    have hle := h3.lo_le
    simp only [List.cons_append, Delta.transformGo]
    simp [elsMask] at this ⊢
    rw [if_neg (by omega)]
    split <;> omega

/-- Where the edit changes offsets. -/
theorem edit_offsets {d : Delta α} (h : d.WF) :
    (∀ k, k ≤ d.summary.1.1 → d.transformIx k false = k) ∧
    (∀ k, d.summary.1.2 < k → k ≤ d.baseLen → d.transformIx k false = k - d.summary.1.2 + (d.summary.1.1 + d.summary.2)) ∧
    (d.transformIx d.summary.1.2 false ≤ d.summary.1.1 + d.summary.2) ∧
    ∀ k, d.summary.1.1 < k → k ≤ d.baseLen → d.transformIx k false = d.summary.1.1 →
      ∃ D ∈ d.iterDeletions, D.oldOffset ≤ k - 1 ∧ k - 1 < D.oldOffset + D.len := by
  obtain ⟨a, els, h1, h2⟩ := d.summary_eq
  rw [h1]
  generalize hb : (summaryTail d.baseLen els).1 = b
  generalize hm : (summaryTail d.baseLen els).2 = mid
  simp only [totalElementLen_eq]
  -- the first copy
  have hw : ElsWF d.baseLen a els := by
    rcases h2 with ⟨rest, h3, rfl⟩ | ⟨rfl, rfl⟩
    · have hwf := h
      rw [Delta.WF, h3] at hwf
      exact hwf.2.2
    · exact h
  have hT : ∀ k, a < k → d.transformIx k false = Delta.transformGo k false els a := by
    intro k hk
    unfold Delta.transformIx
    rw [if_neg (by omega)]
    rcases h2 with ⟨rest, h3, rfl⟩ | ⟨rfl, rfl⟩
    · rw [h3]
      simp only [Delta.transformGo]
      rw [if_neg (by omega), if_neg (by simp; omega)]
      simp
    · rfl
  have hT1 : ∀ k, k ≤ a → d.transformIx k false = k := by
    intro k hk
    unfold Delta.transformIx
    by_cases h0 : k = 0
    · simp [h0]
    · rw [if_neg (by omega)]
      rcases h2 with ⟨rest, h3, rfl⟩ | ⟨rfl, rfl⟩
      · rw [h3]
        simp only [Delta.transformGo]
        rw [if_neg (by omega), if_pos (by simp; omega)]
        omega
      · omega
  have hD : d.iterDeletions = Delta.deletionsGo d.baseLen els a a := by
    unfold Delta.iterDeletions
    rcases h2 with ⟨rest, h3, rfl⟩ | ⟨rfl, rfl⟩
    · rw [h3]
      simp [Delta.deletionsGo]
    · rfl
  have hels : ElsWF b a mid ∧ ∃ post, els = mid ++ post ∧ (post = [] ∧ b = d.baseLen ∨ post = [.copy b d.baseLen]) := by
    unfold summaryTail at hb hm
    split at hb
    · rename_i b' e' hl
      rw [hl] at hm
      simp only at hm hb
      by_cases he : e' = d.baseLen
      · rw [if_pos he] at hb hm
        simp only at hb hm
        subst hb hm
        obtain ⟨a1, a2, a3⟩ := hw.getLast_ge hl
        refine ⟨a3, [.copy b' e'], ?_, .inr (by rw [he])⟩
        obtain ⟨ys, hys⟩ := List.getLast?_eq_some_iff.1 hl
        rw [hys]; simp
      · rw [if_neg he] at hb hm
        simp only at hb hm
        subst hb hm
        exact ⟨hw, [], by simp, .inl ⟨rfl, rfl⟩⟩
    · rename_i hne
      split at hm
      · rename_i b' e' hl
        exact absurd hl (hne b' e')
      · simp only at hb hm
        subst hb hm
        exact ⟨hw, [], by simp, .inl ⟨rfl, rfl⟩⟩
  obtain ⟨hmid, post, hpost, hcase⟩ := hels
  have hab : a ≤ b := hmid.lo_le
  refine ⟨hT1, ?_, ?_, ?_⟩
  · intro k hk hkn
    rcases hcase with ⟨rfl, rfl⟩ | rfl
    · omega
    · rw [hT k (by omega), hpost, transformGo_false_append _ _ hmid hk]
      simp only [Delta.transformGo]
      rw [if_neg (by omega), if_pos (by simp; omega)]
      omega
  · by_cases hab' : a = b
    · rw [hT1 b (by omega)]; omega
    · rw [hT b (by omega), hpost]
      refine transformGo_upto ?_ hmid a
      rcases hcase with ⟨h, -⟩ | h
      · exact .inl h
      · exact .inr ⟨_, h⟩
  · intro k hk hkn hTk
    rw [hT k hk] at hTk
    rw [hD]
    cases els with
    | nil =>
      refine ⟨⟨a, a, d.baseLen - a⟩, ?_, ?_⟩
      · simp only [Delta.deletionsGo]
        rw [if_pos (by omega)]
        simp
      · simp only
        omega
    | cons el els =>
      cases el with
      | insert s =>
        have := List.length_pos_iff.2 hw.1
        simp only [Delta.transformGo] at hTk
        have := transformGo_ge k false els (a + s.length)
        omega
      | copy x y =>
        obtain ⟨w1, w2, w3⟩ := hw
        simp only [Delta.transformGo] at hTk
        by_cases hkx : k ≤ x
        · refine ⟨⟨a, a, x - a⟩, ?_, ?_⟩
          · simp only [Delta.deletionsGo]
            rw [if_pos (by omega)]
            simp
          · simp only
            omega
        · rw [if_neg hkx] at hTk
          split at hTk
          · omega
          · have := transformGo_ge k false els (a + (y - x))
            omega

/-! ### Stretches that are left alone -/

/-- A stretch of which nothing is deleted, and in or before which nothing is inserted, is
copied as it is. -/
theorem stretch_go {n : Nat} {base R : List α} (hn : base.length = n) : ∀ (els : List (DeltaElement α)) (lo pos last p e : Nat),
    ElsWF n lo els → R.drop pos = elsText base els → pos ≤ R.length → lo ≤ p → p < e → e ≤ n →
    (∀ j, p ≤ j → j < e → coveredAt els j = true) →
    (∀ I ∈ Delta.insertsGo els pos last, ¬ (I.newOffset - 1 < Delta.transformGo e false els pos ∧
      (if p = lo then pos else Delta.transformGo p false els pos) < I.newOffset + I.len)) →
    Delta.transformGo e false els pos = (if p = lo then pos else Delta.transformGo p false els pos) + (e - p) ∧
    (R.drop (if p = lo then pos else Delta.transformGo p false els pos)).take (e - p) = (base.drop p).take (e - p) ∧
    Delta.transformGo e false els pos ≤ R.length
  | [], lo, pos, last, p, e, hw, hR, hpos, h1, h2, h3, hc, hI => by
    have := hc p (Nat.le_refl _) h2
    simp [coveredAt] at this
  | .insert s :: els, lo, pos, last, p, e, hw, hR, hpos, h1, h2, h3, hc, hI => by
    have hs := List.length_pos_iff.2 hw.1
    have hge := transformGo_ge e false els (pos + s.length)
    have hlen : R.length = pos + (s.length + (elsText base els).length) := by
      have := congrArg List.length hR
      rw [List.length_drop] at this
      simp [elsText] at this ⊢
      omega
    by_cases hp : p = lo
    · have := hI ⟨last, pos, s.length⟩ (by simp [Delta.insertsGo])
      simp only [Delta.transformGo, if_pos hp] at this
      omega
    · simp only [Delta.transformGo, Delta.insertsGo, List.mem_cons, if_neg hp] at hI ⊢
      have ih := stretch_go (R := R) hn els lo (pos + s.length) (last + s.length) p e hw.2 (by
        rw [← List.drop_drop, hR]
        simp [elsText]) (by omega) h1 h2 h3 (by
          intro j j1 j2
          have := hc j j1 j2
          simpa [coveredAt] using this) (by
          intro I hmem
          rw [if_neg hp]
          exact hI I (.inr hmem))
      simpa only [if_neg hp] using ih
  | .copy x y :: els, lo, pos, last, p, e, hw, hR, hpos, h1, h2, h3, hc, hI => by
    obtain ⟨w1, w2, w3⟩ := hw
    have hyn := w3.lo_le
    have hpl : ((base.take y).drop x).length = y - x := by simp; omega
    have hR' : R.drop (pos + (y - x)) = elsText base els := by
      rw [← List.drop_drop, hR]
      simp only [elsText, List.flatMap_cons]
      exact List.drop_left' hpl
    have hlen : R.length = pos + ((y - x) + (elsText base els).length) := by
      have := congrArg List.length hR
      rw [List.length_drop] at this
      simp only [elsText, List.flatMap_cons, List.length_append, hpl] at this ⊢
      omega
    have hcov : ∀ j, p ≤ j → j < e → (x ≤ j ∧ j < y) ∨ coveredAt els j = true := by
      intro j j1 j2
      have := hc j j1 j2
      simpa [coveredAt] using this
    have hxp : x ≤ p := by
      rcases hcov p (Nat.le_refl _) h2 with h | h
      · exact h.1
      · by_cases hlt : p < y
        · rw [coveredAt_lt w3 hlt] at h
          cases h
        · omega
    by_cases hpy : p < y
    · -- the stretch begins here
      have hTp : (if p = lo then pos else Delta.transformGo p false (.copy x y :: els) pos) = pos + (p - x) := by
        split
        · omega
        · simp only [Delta.transformGo]
          split
          · omega
          · rw [if_pos (by simp; omega)]
            omega
      have hbytes : ∀ k, p + k ≤ y → (R.drop (pos + (p - x))).take k = (base.drop p).take k := by
        intro k hk
        rw [← List.drop_drop, hR]
        simp only [elsText, List.flatMap_cons]
        rw [List.drop_append_of_le_length (by omega), List.take_append_of_le_length (by rw [List.length_drop]; omega), List.drop_drop,
          show x + (p - x) = p by omega, List.drop_take, List.take_take]
        congr 1
        omega
      rw [hTp] at hI ⊢
      by_cases hey : e ≤ y
      · have hTe : Delta.transformGo e false (.copy x y :: els) pos = pos + (e - x) := by
          simp only [Delta.transformGo]
          rw [if_neg (by omega), if_pos (by simp; omega)]
          omega
        rw [hTe]
        exact ⟨by omega, hbytes _ (by omega), by omega⟩
      · have hTe : Delta.transformGo e false (.copy x y :: els) pos = Delta.transformGo e false els (pos + (y - x)) := by
          simp only [Delta.transformGo]
          rw [if_neg (by omega), if_neg (by simp; omega)]
        rw [hTe] at hI ⊢
        obtain ⟨i1, i2, i3⟩ := stretch_go (R := R) hn els y (pos + (y - x)) y y e w3 hR' (by omega) (Nat.le_refl _) (by omega) h3 (by
          intro j j1 j2
          rcases hcov j (by omega) j2 with h | h
          · omega
          · exact h) (by
          intro I hmem
          rw [if_pos rfl]
          have := hI I (by simpa [Delta.insertsGo] using hmem)
          omega)
        rw [if_pos rfl] at i1 i2
        refine ⟨by omega, ?_, i3⟩
        have e1 : e - p = (y - p) + (e - y) := by omega
        rw [e1, List.take_add, List.take_add, hbytes _ (by omega), List.drop_drop, List.drop_drop, show pos + (p - x) + (y - p) = pos + (y - x) by omega,
          show p + (y - p) = y by omega, i2]
    · -- it begins further on
      have hTe : Delta.transformGo e false (.copy x y :: els) pos = Delta.transformGo e false els (pos + (y - x)) := by
        simp only [Delta.transformGo]
        rw [if_neg (by omega), if_neg (by simp; omega)]
      have hTp : (if p = lo then pos else Delta.transformGo p false (.copy x y :: els) pos) =
          if p = y then pos + (y - x) else Delta.transformGo p false els (pos + (y - x)) := by
        rw [if_neg (by omega)]
        simp only [Delta.transformGo]
        rw [if_neg (by omega)]
        by_cases hpe : p = y
        · rw [if_pos (by simp; omega), if_pos hpe]; omega
        · rw [if_neg (by simp; omega), if_neg hpe]
      rw [hTe, hTp] at hI ⊢
      exact stretch_go (R := R) hn els y (pos + (y - x)) y p e w3 hR' (by omega) (by omega) h2 h3 (by
        intro j j1 j2
        rcases hcov j j1 j2 with h | h
        · omega
        · exact h) (by
        intro I hmem
        exact hI I (by simpa [Delta.insertsGo] using hmem))

theorem stretch {d : Delta α} (h : d.WF) {base : List α} (hl : base.length = d.baseLen) {p e : Nat} (h1 : p < e) (h2 : e ≤ d.baseLen)
    (hc : ∀ j, p ≤ j → j < e → coveredAt d.els j = true)
    (hI : ∀ I ∈ d.iterInserts, ¬ (I.newOffset - 1 < d.transformIx e false ∧ d.transformIx p false < I.newOffset + I.len)) :
    d.transformIx e false = d.transformIx p false + (e - p) ∧
    ((d.result base).drop (d.transformIx p false)).take (e - p) = (base.drop p).take (e - p) ∧
    d.transformIx e false ≤ (d.result base).length := by
  have hp : d.transformIx p false = if p = 0 then 0 else Delta.transformGo p false d.els 0 := by
    simp [Delta.transformIx]
  have he : d.transformIx e false = Delta.transformGo e false d.els 0 := by
    unfold Delta.transformIx
    rw [if_neg (by omega)]
  simp only [hp, he] at hI ⊢
  exact stretch_go hl d.els 0 0 0 p e h rfl (Nat.zero_le _) (Nat.zero_le _) h1 h2 hc hI

/-! ### Deleting and moving highlights -/

namespace FindState

/-- Deleting what meets any of some ranges. -/
theorem deleteAll {β : Type} (f g : β → Nat) : ∀ (l : List β) {occ : Selection}, (∀ x ∈ l, f x < g x) → Selection.Inv occ →
    ∃ occ', l.foldlM (fun occ x => Selection.deleteRange occ (f x) (g x) false) occ = some occ' ∧ Selection.Inv occ' ∧
      ∀ r, r ∈ occ' ↔ r ∈ occ ∧ ∀ x ∈ l, ¬ (f x < r.hi ∧ r.lo < g x)
  | [], occ, _, hi => ⟨occ, rfl, hi, by simp⟩
  | x :: l, occ, hx, hi => by
    have h1 := hx x (by simp)
    have h2 := C32_delete_partial hi (Nat.le_of_lt h1) (.inl h1)
    obtain ⟨occ', h3, h4, h5⟩ := deleteAll f g l (occ := occ.filter (fun r => !(decide (f x < r.hi) && decide (r.lo < g x)))) (fun y hy => hx y (by simp [hy]))
      (inv_sublist (List.filter_sublist) hi)
    refine ⟨occ', ?_, h4, ?_⟩
    · rw [List.foldlM_cons, h2]
      exact h3
    · intro r
      rw [h5 r, List.mem_filter]
      simp only [List.mem_cons, forall_eq_or_imp, Bool.not_eq_true', Bool.and_eq_false_iff, decide_eq_false_iff_not]
      constructor
      · rintro ⟨⟨a, b⟩, c⟩
        exact ⟨a, by omega, c⟩
      · rintro ⟨a, b, c⟩
        exact ⟨⟨a, by omega⟩, c⟩

/-- Adding a region beyond all others. -/
theorem add_last {s : Selection} (hs : Selection.Inv s) {region : SelRegion} (h : ∀ m ∈ s, m.hi ≤ region.lo) :
    ∃ s', s.addRegion region = some s' ∧ Selection.Inv s' ∧ ∀ r ∈ s', r ∈ s ∨ r = region ∨
      ∃ m ∈ s, r = region.mergeWith m ∧ m.hi = region.lo ∧ (m.lo = m.hi ∨ region.lo = region.hi) := by
  obtain ⟨s', h1, h2⟩ := add_some hs region
  refine ⟨s', h1, h2, ?_⟩
  obtain ⟨A, B, rfl, hix, hA, hB⟩ := search_split hs region.lo
  have hinv := hs
  simp only [Selection.Inv, List.pairwise_append] at hinv
  unfold addRegion at h1
  simp only [hix, get_mid] at h1
  cases B with
  | nil =>
    simp only [List.getElem?_nil, List.append_nil, Option.some.injEq] at h1
    subst h1
    intro r hr
    rcases List.mem_append.1 hr with h | h
    · exact .inl (by simpa using h)
    · exact .inr (.inl (List.mem_singleton.1 h))
  | cons m B =>
    have hm : m.hi = region.lo := Nat.le_antisymm (h m (by simp)) (hB m (by simp))
    have hB' : B = [] := by
      cases B with
      | nil => rfl
      | cons x B =>
        have h3 := hi_lt ((List.pairwise_cons.1 hinv.2.1).1 x (by simp))
        have h4 := h x (by simp)
        omega
    subst hB'
    have hml := lo_le m
    have hrl := lo_le region
    simp only [List.getElem?_cons_zero] at h1
    rw [if_pos (by omega)] at h1
    have hdrop : (A ++ [m]).drop (A.length + 1) = [] := by simp
    rw [hdrop] at h1
    simp only [mergeLoop] at h1
    split at h1
    · rename_i hsm
      have hp := putRegion_eq A [m] [] (region.mergeWith m)
      simp only [List.append_nil, List.length_singleton] at hp
      rw [hp, Option.some.injEq] at h1
      subst h1
      intro r hr
      rcases List.mem_append.1 hr with h | h
      · exact .inl (by simp [h])
      · refine .inr (.inr ⟨m, by simp, List.mem_singleton.1 h, hm, ?_⟩)
        have h5 := (shouldMerge_iff _ _).1 hsm
        simp only [Before, caret_iff] at h5
        omega
    · have hp := putRegion_eq (A ++ [m]) [] [] region
      simp only [List.append_nil, List.length_nil, Nat.add_zero, List.length_append, List.length_singleton] at hp
      rw [hp, Option.some.injEq] at h1
      subst h1
      intro r hr
      rcases List.mem_append.1 hr with h | h
      · exact .inl h
      · exact .inr (.inl (List.mem_singleton.1 h))

/-- Adding regions in order. -/
theorem addAll {β : Type} (f : β → SelRegion) (L : List β) : ∀ (l : List β) {s : Selection}, (∀ x ∈ l, x ∈ L) → (∀ x ∈ l, (f x).start ≤ (f x).stop) →
    l.Pairwise (fun x y => (f x).hi ≤ (f y).lo) → Selection.Inv s → (∀ m ∈ s, ∀ x ∈ l, m.hi ≤ (f x).lo) →
    (∀ r ∈ s, r.start ≤ r.stop ∧ ∃ x ∈ L, r.lo = (f x).lo ∧ r.hi = (f x).hi) →
    ∃ s', l.foldlM (fun result x => Selection.addRegion result (f x)) s = some s' ∧ Selection.Inv s' ∧
      ∀ r ∈ s', r.start ≤ r.stop ∧ ∃ x ∈ L, r.lo = (f x).lo ∧ r.hi = (f x).hi
  | [], s, _, _, _, hs, _, hr => ⟨s, rfl, hs, hr⟩
  | x :: l, s, hL, hfw, hp, hs, hb, hr => by
    obtain ⟨s1, h1, h2, h3⟩ := add_last hs (region := f x) (fun m hm => hb m hm x (by simp))
    obtain ⟨p1, p2⟩ := List.pairwise_cons.1 hp
    have hfx := hfw x (by simp)
    have hxx := lo_le (f x)
    have key : ∀ r ∈ s1, r.start ≤ r.stop ∧ r.hi ≤ (f x).hi ∧ ∃ y ∈ L, r.lo = (f y).lo ∧ r.hi = (f y).hi := by
      intro r hr'
      rcases h3 r hr' with h | rfl | ⟨m, hm, rfl, hmx, hc⟩
      · have := hb r h x (by simp)
        exact ⟨(hr r h).1, by omega, (hr r h).2⟩
      · exact ⟨hfx, Nat.le_refl _, x, hL x (by simp), rfl, rfl⟩
      · rw [merge_lo, merge_hi]
        have hml := lo_le m
        refine ⟨?_, by omega, ?_⟩
        · simp only [SelRegion.mergeWith]
          rw [if_pos (by simpa using hfx)]
          simp only [SelRegion.new]
          omega
        · rcases hc with hc | hc
          · exact ⟨x, hL x (by simp), by omega, by omega⟩
          · obtain ⟨y, y1, y2, y3⟩ := (hr m hm).2
            exact ⟨y, y1, by omega, by omega⟩
    obtain ⟨s', k1, k2, k3⟩ := addAll f L l (s := s1) (fun y hy => hL y (by simp [hy])) (fun y hy => hfw y (by simp [hy])) p2 h2 (by
      intro m hm y hy
      have := (key m hm).2.1
      have := p1 y hy
      omega) (fun r hr' => ⟨(key r hr').1, (key r hr').2.2⟩)
    refine ⟨s', ?_, k2, k3⟩
    rw [List.foldlM_cons, h1]
    exact k1

end FindState

end Xi
