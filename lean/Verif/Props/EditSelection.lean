import Verif.Props.Selection
import Verif.Props.Delta

/-!
# What an edit does to a selection far from it
-/

namespace Xi

namespace Delta

variable {α : Type}

/-- Where an edit moves offsets: nothing moves before it, what is after it moves along, and what is in it
stays in it. -/
structure Moves (s e s' len : Nat) (f : Nat → Nat) : Prop where
  before : ∀ x, x < s → f x = x
  inside : ∀ x, s ≤ x → x ≤ e → s ≤ f x ∧ f x ≤ s'
  after : ∀ x, e < x → x ≤ len → f x = x - e + s'

theorem summary_split (d : Delta α) : ∃ pre mid post, d.els = pre ++ mid ++ post ∧
    (pre = [.copy 0 d.summary.1.1] ∨ pre = [] ∧ d.summary.1.1 = 0) ∧ (post = [.copy d.summary.1.2 d.baseLen] ∨ post = [] ∧ d.summary.1.2 = d.baseLen) ∧
    totalElementLen mid = d.summary.2 := by
  obtain ⟨s, els, h1, h2⟩ := d.summary_eq
  rw [h1]
  simp only
  have htail : ∃ post, els = (summaryTail d.baseLen els).2 ++ post ∧
      (post = [.copy (summaryTail d.baseLen els).1 d.baseLen] ∨ post = [] ∧ (summaryTail d.baseLen els).1 = d.baseLen) := by
    unfold summaryTail
    split
    · rename_i b e hl
      by_cases he : e = d.baseLen
      · rw [if_pos he]
        obtain ⟨ys, hys⟩ := List.getLast?_eq_some_iff.1 hl
        exact ⟨[.copy b e], by rw [hys]; simp, .inl (by rw [he])⟩
      · rw [if_neg he]
        exact ⟨[], by simp, .inr ⟨rfl, rfl⟩⟩
    · exact ⟨[], by simp, .inr ⟨rfl, rfl⟩⟩
  obtain ⟨post, t1, t2⟩ := htail
  rcases h2 with ⟨rest, h3, rfl⟩ | ⟨rfl, rfl⟩
  · exact ⟨[.copy 0 s], _, post, by rw [h3, List.append_assoc, ← t1]; rfl, .inl rfl, t2, rfl⟩
  · exact ⟨[], _, post, by rw [List.nil_append, ← t1], .inr ⟨rfl, rfl⟩, t2, rfl⟩

theorem moves (d : Delta α) (h : d.WF) (base : List α) (hl : base.length = d.baseLen) (a : Bool) :
    Moves d.summary.1.1 d.summary.1.2 (d.summary.1.1 + d.summary.2) d.baseLen (fun x => d.transformIx x a) := by
  obtain ⟨pre, mid, post, h1, h2, h3, h4⟩ := d.summary_split
  obtain ⟨m1, m2, m3, m4⟩ := C14_transform_monotone d h
  generalize d.summary.1.1 = s at *
  generalize d.summary.1.2 = e at *
  rw [totalElementLen_eq] at h4
  have hw : ElsWF d.baseLen 0 (pre ++ mid ++ post) := by
    have := h
    rwa [Delta.WF, h1] at this
  have hpl : (elsMask pre).length = s := by
    rcases h2 with rfl | ⟨rfl, rfl⟩
    · simp [elsMask]
    · simp [elsMask]
  have hnd : post = [] → d.newDocumentLen = s + d.summary.2 := by
    rintro rfl
    rw [newDocumentLen, totalElementLen_eq, h1]
    simp only [elsMask, List.append_nil, List.flatMap_append, List.length_append] at *
    omega
  have hbefore : ∀ x a, x < s → d.transformIx x a = x := by
    intro x a hx
    rcases h2 with rfl | ⟨-, rfl⟩
    · unfold transformIx
      split
      · omega
      · rw [h1]
        simp only [List.cons_append, List.nil_append, transformGo]
        split
        · omega
        · rw [if_pos (by simp; omega)]
          omega
    · omega
  have hs : d.transformIx s false = s := by
    rcases h2 with rfl | ⟨-, rfl⟩
    · unfold transformIx
      split
      · omega
      · rw [h1]
        simp only [List.cons_append, List.nil_append, transformGo]
        split
        · omega
        · rw [if_pos (by simp)]
          omega
    · exact m3
  have hlast : ∀ x, post = [.copy e d.baseLen] → e ≤ x → x < d.baseLen → d.transformIx x true = s + d.summary.2 + (x - e) ∧
      d.transformIx (x + 1) false = s + d.summary.2 + (x - e) + 1 := by
    rintro x rfl hx1 hx2
    obtain ⟨w1, w2, w3⟩ := hw.split_copy
    obtain ⟨e1, e2, -⟩ := C14_transform_tracks_characters d h (pre := pre ++ mid) (post := []) h1 hx1 hx2 base hl
    have : (elsText base (pre ++ mid)).length = s + d.summary.2 := by
      rw [elsText_length ((w1.mono (by omega)).inRange)]
      simp only [elsMask, List.flatMap_append, List.length_append] at *
      omega
    rw [e1, e2, this]
    exact ⟨rfl, rfl⟩
  refine ⟨fun x hx => hbefore x a hx, ?_, ?_⟩
  · intro x hx1 hx2
    have k1 := m1 false s x hx1
    have k2 : d.transformIx x false ≤ d.transformIx x a := by
      cases a
      · exact Nat.le_refl _
      · exact m2 x
    have k3 : d.transformIx x a ≤ d.transformIx x true := by
      cases a
      · exact m2 x
      · exact Nat.le_refl _
    have k4 := m1 true x e hx2
    have k5 : d.transformIx e true ≤ s + d.summary.2 := by
      rcases h3 with rfl | ⟨rfl, he⟩
      · have := (hlast e rfl (Nat.le_refl _) hw.split_copy.2.1).1
        omega
      · rw [he, m4, hnd rfl]
        exact Nat.le_refl _
    show s ≤ d.transformIx x a ∧ d.transformIx x a ≤ s + d.summary.2
    omega
  · intro x hx1 hx2
    show d.transformIx x a = x - e + (s + d.summary.2)
    rcases h3 with h3 | ⟨rfl, he⟩
    · have k1 := (hlast (x - 1) h3 (by omega) (by omega))
      rw [show x - 1 + 1 = x by omega] at k1
      cases a
      · omega
      · by_cases hxl : x < d.baseLen
        · have := (hlast x h3 (by omega) hxl).1
          omega
        · have hxe : x = d.baseLen := by omega
          subst hxe
          rw [m4, newDocumentLen, totalElementLen_eq, h1, h3]
          simp only [elsMask_append, elsMask_copy, elsMask_nil, List.length_append, List.length_replicate, List.length_nil]
          omega
    · omega

end Delta

namespace Selection

/-- Adding a region behind all others. -/
theorem add_last {acc : Selection} {f R : SelRegion} (hs : Inv (acc ++ [f])) (hf : f.hi ≤ R.lo) :
    (acc ++ [f]).addRegion R = some (if f.shouldMerge R then acc ++ [R.mergeWith f] else acc ++ [f, R]) := by
  have hfl := lo_le f
  have hi : ∀ a ∈ acc, a.hi < R.lo := by
    intro a ha
    have := hi_lt ((List.pairwise_append.1 hs).2.2 a ha f (by simp))
    omega
  have h1 : acc.findIdx (fun r => decide (r.hi ≥ R.lo)) = acc.length := by
    rw [List.findIdx_eq_length]
    intro a ha
    have := hi a ha
    simp; omega
  have hix : Selection.search (acc ++ [f]) R.lo = if f.hi = R.lo then acc.length else acc.length + 1 := by
    unfold Selection.search
    rw [List.findIdx_append, if_neg (by rw [h1]; omega)]
    by_cases hc : f.hi = R.lo
    · rw [if_pos hc, List.findIdx_cons]
      simp [hc]
    · rw [if_neg hc, List.findIdx_cons]
      have : ¬ R.lo ≤ f.hi := by omega
      simp [this]
      omega
  unfold Selection.addRegion
  simp only [hix]
  by_cases hc : f.hi = R.lo
  · rw [if_pos hc]
    simp only [List.getElem?_append_right (Nat.le_refl _), Nat.sub_self, List.getElem?_cons_zero]
    rw [if_pos (show f.lo ≤ R.lo by omega)]
    by_cases hm : f.shouldMerge R = true
    · rw [if_pos hm, if_pos hm]
      have : (acc ++ [f]).drop (acc.length + 1) = [] := by simp
      rw [this]
      simp [Selection.mergeLoop, Selection.putRegion, removeNAt]
    · rw [if_neg hm, if_neg hm]
      have : (acc ++ [f]).drop (acc.length + 1) = [] := by simp
      rw [this]
      simp only [Selection.mergeLoop, Selection.putRegion, if_pos]
      congr 1
      have := List.insertIdx_length_self (l := acc ++ [f]) (x := R)
      simpa using this
  · rw [if_neg hc]
    have hm : ¬ f.shouldMerge R = true := by
      simp only [SelRegion.shouldMerge, Bool.or_eq_true, Bool.and_eq_true, beq_iff_eq, decide_eq_true_eq]
      omega
    simp [hm]

/-- The two ends of a region. -/
def ends (q : SelRegion) : Nat × Nat := (q.start, q.stop)

/-- Not a caret from `s` to `t`. -/
def Matters (s t : Nat) (p : Nat × Nat) : Bool := !(p.1 == p.2 && decide (s ≤ p.1) && decide (p.1 ≤ t))

/-- Regions that come one after the other are kept when they are added, but for carets between `s` and `t`. -/
theorem fold_ends {s t : Nat} : ∀ (l : List SelRegion) {acc done : Selection}, Inv acc →
    (acc.map ends).filter (Matters s t) = (done.map ends).filter (Matters s t) → (∀ x ∈ acc, ends x ∈ done.map ends) →
    (done ++ l).Pairwise (fun a b => a.hi ≤ b.lo ∧ (a.hi = b.lo → a.start = a.stop ∨ b.start = b.stop → s ≤ a.hi ∧ a.hi ≤ t)) →
    (∀ q ∈ done ++ l, q.stop < q.start → q.start < s ∨ t < q.start) →
    ∃ s', l.foldlM (fun acc q => Selection.addRegion acc q) acc = some s' ∧ Inv s' ∧
      (s'.map ends).filter (Matters s t) = ((done ++ l).map ends).filter (Matters s t) ∧ ∀ x ∈ s', ends x ∈ (done ++ l).map ends
  | [], acc, done, hi, hk, hm, _, _ => ⟨acc, rfl, hi, by simpa using hk, by simpa using hm⟩
  | R :: l, acc, done, hi, hk, hm, hp, ht => by
    have hpR : ∀ x ∈ acc, x.hi ≤ R.lo ∧ (x.hi = R.lo → x.start = x.stop ∨ R.start = R.stop → s ≤ x.hi ∧ x.hi ≤ t) ∧ (x.stop < x.start → x.start < s ∨ t < x.start) := by
      intro x hx
      obtain ⟨y, hy, he⟩ := List.mem_map.1 (hm x hx)
      have h1 := (List.pairwise_append.1 hp).2.2 y hy R (by simp)
      have h2 := ht y (by simp [hy])
      simp only [ends, Prod.mk.injEq] at he
      obtain ⟨e1, e2⟩ := he
      simp only [SelRegion.hi, e1, e2] at h1 h2 ⊢
      exact ⟨h1.1, h1.2, h2⟩
    obtain ⟨acc', h1, h2⟩ := add_some hi R
    have key : (acc'.map ends).filter (Matters s t) = ((done ++ [R]).map ends).filter (Matters s t) ∧ ∀ x ∈ acc', ends x ∈ (done ++ [R]).map ends := by
      have hplus : acc' = acc ++ [R] → (acc'.map ends).filter (Matters s t) = ((done ++ [R]).map ends).filter (Matters s t) ∧ ∀ x ∈ acc', ends x ∈ (done ++ [R]).map ends := by
        rintro rfl
        refine ⟨by rw [List.map_append, List.map_append, List.filter_append, List.filter_append, hk], ?_⟩
        intro x hx
        rcases List.mem_append.1 hx with hx | hx
        · rw [List.map_append]
          exact List.mem_append.2 (.inl (hm x hx))
        · simp at hx
          simp [hx]
      rcases List.eq_nil_or_concat acc with rfl | ⟨init, f, rfl⟩
      · apply hplus
        simp [Selection.addRegion, Selection.search] at h1
        exact h1.symm
      · rw [List.concat_eq_append] at *
        obtain ⟨p1, p2, p3⟩ := hpR f (by simp)
        rw [add_last hi p1, Option.some.injEq] at h1
        by_cases hmg : f.shouldMerge R = true
        · rw [if_pos hmg] at h1
          subst h1
          simp only [SelRegion.shouldMerge, SelRegion.isCaret, Bool.or_eq_true, Bool.and_eq_true, beq_iff_eq, decide_eq_true_eq] at hmg
          have hflo := lo_le f
          have hRlo := lo_le R
          have hmg : (f.start = f.stop ∨ R.start = R.stop) ∧ R.lo = f.hi := by omega
          obtain ⟨p4, p5⟩ := p2 hmg.2.symm hmg.1
          have hends : ends (R.mergeWith f) = (if f.start = f.stop then ends R else ends f) := by
            simp only [ends, SelRegion.mergeWith, SelRegion.lo, SelRegion.hi, SelRegion.new] at *
            repeat' split
            all_goals simp only [Prod.mk.injEq, decide_eq_true_eq] at *; omega
          have hR : ¬ f.start = f.stop → R.start = R.stop := fun h => hmg.1.resolve_left h
          have hz : ∀ q : SelRegion, q.start = q.stop → (q.lo = f.hi ∨ q.hi = f.hi) → Matters s t (ends q) = false := by
            intro q hq hh
            have : q.start = f.hi := by
              simp only [SelRegion.lo, SelRegion.hi] at *
              omega
            simp only [Matters, ends, ← hq, this, beq_self_eq_true, Bool.true_and, Bool.not_eq_false', Bool.and_eq_true, decide_eq_true_eq]
            exact ⟨p4, p5⟩
          refine ⟨?_, ?_⟩
          · rw [List.map_append, List.filter_append] at hk
            rw [List.map_append, List.filter_append, List.map_append, List.filter_append, ← hk]
            simp only [List.map_cons, List.map_nil, hends]
            by_cases hfc : f.start = f.stop
            · rw [if_pos hfc, List.filter_cons_of_neg (a := ends f) (by rw [hz f hfc (.inr rfl)]; simp)]
              simp
            · rw [if_neg hfc, List.filter_cons_of_neg (a := ends R) (by rw [hz R (hR hfc) (.inl hmg.2)]; simp)]
              simp
          · intro x hx
            rw [List.map_append]
            rcases List.mem_append.1 hx with hx | hx
            · exact List.mem_append.2 (.inl (hm x (by simp [hx])))
            · simp at hx
              subst hx
              rw [hends]
              split
              · simp
              · exact List.mem_append.2 (.inl (hm f (by simp)))
        · rw [if_neg hmg] at h1
          exact hplus (by rw [← h1]; simp)
    obtain ⟨s', g1, g2, g3, g4⟩ := fold_ends (s := s) (t := t) l h2 key.1 key.2 (by simpa using hp) (by simpa using ht)
    exact ⟨s', by simp only [List.foldlM_cons, h1, Option.bind_eq_bind, Option.bind_some]; exact g1, g2, by simpa using g3, by simpa using g4⟩

/-- No region that has its cursor before its other end has that other end in the edit. -/
def NoTurn (s e : Nat) (sel : Selection) : Prop := ∀ q ∈ sel, q.stop < q.start → q.start < s ∨ e < q.start

theorem move_default {α : Type} (d : Delta α) (q : SelRegion) : (moveRegion d true .default q).start = d.transformIx q.start true ∧
    (moveRegion d true .default q).stop = d.transformIx q.stop true := by
  simp [moveRegion, driftFlags, SelRegion.new, SelRegion.withAffinity]

/-- What an edit leaves of the regions, but for carets in it: their ends are moved. -/
theorem apply_ends {α : Type} {d : Delta α} (h : d.WF) {base : List α} (hl : base.length = d.baseLen) {sel : Selection} (hi : Inv sel)
    (hlen : ∀ q ∈ sel, q.hi ≤ d.baseLen) (ht : NoTurn d.summary.1.1 d.summary.1.2 sel) : ∃ sel', sel.applyDelta d true .default = some sel' ∧ Inv sel' ∧
      (sel'.map ends).filter (Matters d.summary.1.1 (d.summary.1.1 + d.summary.2)) =
        (sel.map fun q => (d.transformIx q.start true, d.transformIx q.stop true)).filter (Matters d.summary.1.1 (d.summary.1.1 + d.summary.2)) ∧
      ∀ x ∈ sel', ∃ q ∈ sel, x.start = d.transformIx q.start true ∧ x.stop = d.transformIx q.stop true := by
  have hm := d.moves h base hl true
  have hmono := (C14_transform_monotone d h).1 true
  have hst := (d.summary_spec base h hl).1
  obtain ⟨s', h1, h2, h3, h4⟩ := fold_ends (s := d.summary.1.1) (t := d.summary.1.1 + d.summary.2) (sel.map (moveRegion d true .default)) (acc := []) (done := [])
    List.Pairwise.nil rfl (by simp) (by
      rw [List.nil_append, List.pairwise_map]
      refine List.Pairwise.imp_of_mem ?_ hi
      intro a b ha hb hab
      obtain ⟨a1, a2⟩ := move_default d a
      obtain ⟨b1, b2⟩ := move_default d b
      have la := hlen a ha
      have lb := hlen b hb
      obtain ⟨k1, k2⟩ := hab
      simp only [SelRegion.lo, SelRegion.hi, a1, a2, b1, b2] at *
      have q1 := hmono a.start b.start (by omega)
      have q2 := hmono a.start b.stop (by omega)
      have q3 := hmono a.stop b.start (by omega)
      have q4 := hmono a.stop b.stop (by omega)
      refine ⟨by omega, fun e1 e2 => ?_⟩
      have fact : ∀ x, x ≤ d.baseLen → x < d.summary.1.1 ∧ d.transformIx x true = x ∨ d.summary.1.1 ≤ d.transformIx x true ∧ d.transformIx x true ≤ d.summary.1.1 + d.summary.2 ∨
          d.summary.1.2 < x ∧ d.transformIx x true = x - d.summary.1.2 + (d.summary.1.1 + d.summary.2) := by
        intro x hx
        by_cases x1 : x < d.summary.1.1
        · exact .inl ⟨x1, hm.before x x1⟩
        · by_cases x2 : x ≤ d.summary.1.2
          · exact .inr (.inl (hm.inside x (by omega) x2))
          · exact .inr (.inr ⟨by omega, hm.after x (by omega) hx⟩)
      have f1 := fact a.start (by omega)
      have f2 := fact a.stop (by omega)
      have f3 := fact b.start (by omega)
      have f4 := fact b.stop (by omega)
      generalize d.transformIx a.start true = A at *
      generalize d.transformIx a.stop true = A' at *
      generalize d.transformIx b.start true = B at *
      generalize d.transformIx b.stop true = B' at *
      omega) (by
      intro q hq hlt
      rw [List.nil_append] at hq
      obtain ⟨q, hq', rfl⟩ := List.mem_map.1 hq
      obtain ⟨a1, a2⟩ := move_default d q
      rw [a1, a2] at hlt
      rw [a1]
      have hlt' : q.stop < q.start := by
        apply Classical.byContradiction
        intro hc
        have := hmono q.start q.stop (by omega)
        omega
      have hle := hlen q hq'
      rcases ht q hq' hlt' with hc | hc
      · left; rw [hm.before _ hc]; exact hc
      · right
        rw [hm.after _ hc (by simp only [SelRegion.hi] at hle; omega)]
        omega)
  refine ⟨s', ?_, h2, ?_, ?_⟩
  · rw [← h1]
    unfold Selection.applyDelta
    rw [List.foldlM_map]
  · rw [h3, List.nil_append, List.map_map]
    rfl
  · intro x hx
    have := h4 x hx
    rw [List.nil_append, List.map_map] at this
    obtain ⟨q, hq, he⟩ := List.mem_map.1 this
    obtain ⟨a1, a2⟩ := move_default d q
    simp only [Function.comp, ends, a1, a2, Prod.mk.injEq] at he
    exact ⟨q, hq, he.1.symm, he.2.symm⟩

end Selection

end Xi
