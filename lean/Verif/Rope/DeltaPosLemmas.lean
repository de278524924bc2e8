import Verif.Rope.ExpandLemmas

/-! # Builder, summary, position mapping and reported regions -/

namespace Xi

variable {α : Type}

/-! ### Deleted positions -/

@[simp] theorem coveredAt_nil (j) : coveredAt ([] : List (DeltaElement α)) j = false := rfl
@[simp] theorem coveredAt_copy (b e) (els : List (DeltaElement α)) (j) :
    coveredAt (.copy b e :: els) j = ((decide (b ≤ j) && decide (j < e)) || coveredAt els j) := rfl
@[simp] theorem coveredAt_insert (s) (els : List (DeltaElement α)) (j) :
    coveredAt (.insert s :: els) j = coveredAt els j := rfl

theorem coveredAt_lt {n lo} {els : List (DeltaElement α)} (h : ElsWF n lo els) {j} (hj : j < lo) :
    coveredAt els j = false := by
  induction els generalizing lo with
  | nil => rfl
  | cons el els ih =>
    cases el with
    | copy b e =>
      obtain ⟨h1, h2, h3⟩ := h
      have := ih h3 (by omega)
      simp [this]; omega
    | insert s => simp [ih h.2 hj]

theorem delMask_length {n lo} {els : List (DeltaElement α)} (h : ElsWF n lo els) :
    (delMask n lo els).length = n - lo := by
  induction els generalizing lo with
  | nil => simp [delMask]
  | cons el els ih =>
    cases el with
    | copy b e =>
      obtain ⟨h1, h2, h3⟩ := h
      have := h3.lo_le
      simp [delMask, ih h3]; omega
    | insert s => simp [delMask, ih h.2]

theorem delMask_spec {n lo} {els : List (DeltaElement α)} (h : ElsWF n lo els) :
    ∀ j, lo ≤ j → j < n → (delMask n lo els)[j - lo]? = some (if coveredAt els j then 0 else 1) := by
  induction els generalizing lo with
  | nil => intro j h1 h2; simp [delMask, List.getElem?_replicate]; omega
  | cons el els ih =>
    cases el with
    | copy b e =>
      obtain ⟨h1, h2, h3⟩ := h
      intro j hj1 hj2
      have hle := h3.lo_le
      simp only [delMask]
      by_cases hjb : j < b
      · have hc := coveredAt_lt h3 (j := j) (by omega)
        rw [List.append_assoc, List.getElem?_append_left (by simp; omega), List.getElem?_replicate,
          if_pos (by omega)]
        simp [hc]; omega
      · by_cases hje : j < e
        · rw [List.append_assoc, List.getElem?_append_right (by simp; omega),
            List.getElem?_append_left (by simp; omega), List.getElem?_replicate, if_pos (by simp; omega)]
          simp; omega
        · rw [List.getElem?_append_right (by simp; omega)]
          have := ih h3 j (by omega) hj2
          have e1 : j - lo - (List.replicate (b - lo) 1 ++ List.replicate (e - b) 0).length = j - e := by
            simp; omega
          rw [e1, this]
          have : decide (j < e) = false := by simp; omega
          simp [this]
    | insert s => exact ih h.2

/-! ### Builder -/

theorem ScriptOk.le {n lo} {script : List (Nat × Nat × List α)} (h : ScriptOk n lo script) : lo ≤ n := by
  induction script generalizing lo with
  | nil => exact h
  | cons x rest ih =>
    obtain ⟨s, e, r⟩ := x
    have := ih h.2.2; have := h.1; have := h.2.1; omega

theorem ElsWF.pushCopyEnd {n n' lo} (els : List (DeltaElement α)) (h : ElsWF n lo els) (hn : n < n') :
    ElsWF n' lo (els ++ [.copy n n']) := by
  induction els generalizing lo with
  | nil => exact ⟨h, hn, Nat.le_refl _⟩
  | cons el els ih =>
    cases el with
    | copy b e => exact ⟨h.1, h.2.1, ih h.2.2⟩
    | insert s => exact ⟨h.1, ih h.2⟩

theorem DeltaBuilder.run_spec (base : List α) : ∀ (script : List (Nat × Nat × List α)) (b : DeltaBuilder α),
    ScriptOk base.length b.lastOffset script → b.delta.baseLen = base.length →
    ElsWF b.lastOffset 0 b.delta.els →
    ∃ b', b.run script = some b' ∧ b'.delta.baseLen = base.length ∧ b'.lastOffset ≤ base.length ∧
      ElsWF b'.lastOffset 0 b'.delta.els ∧
      elsText base b'.delta.els ++ base.drop b'.lastOffset =
        elsText base b.delta.els ++ replaced base b.lastOffset script := by
  intro script
  induction script with
  | nil => intro b h h1 h2; exact ⟨b, rfl, h1, h, h2, rfl⟩
  | cons x rest ih =>
    intro b h h1 h2
    obtain ⟨s, e, r⟩ := x
    obtain ⟨g1, g2, g3⟩ := h
    -- after `delete`
    let b1 : DeltaBuilder α :=
      { delta := if s > b.lastOffset then { b.delta with els := b.delta.els ++ [.copy b.lastOffset s] } else b.delta
        lastOffset := e }
    have hd : b.delete s e = some b1 := by simp [DeltaBuilder.delete, g1, b1]
    have hb1 : b1.delta.baseLen = base.length ∧ ElsWF s 0 b1.delta.els ∧
        elsText base b1.delta.els = elsText base b.delta.els ++ (base.take s).drop b.lastOffset := by
      by_cases hlt : s > b.lastOffset
      · simp only [b1, if_pos hlt]
        exact ⟨h1, h2.pushCopyEnd _ hlt, by simp⟩
      · simp only [b1, if_neg hlt]
        have : b.lastOffset = s := by omega
        exact ⟨h1, this ▸ h2, by rw [this]; simp⟩
    by_cases hr : r = []
    · subst hr
      obtain ⟨b', a1, a2, a3, a4, a5⟩ := ih b1 g3 hb1.1 (hb1.2.1.mono g2)
      refine ⟨b', ?_, a2, a3, a4, ?_⟩
      · simp only [DeltaBuilder.run, List.foldlM_cons, DeltaBuilder.replace, hd] at a1 ⊢
        simpa using a1
      · rw [a5, hb1.2.2]; simp [replaced, b1]
    · let b2 : DeltaBuilder α := { b1 with delta := { b1.delta with els := b1.delta.els ++ [.insert r] } }
      obtain ⟨b', a1, a2, a3, a4, a5⟩ := ih b2 g3 hb1.1 ((hb1.2.1.mono g2).pushInsert _ hr)
      refine ⟨b', ?_, a2, a3, a4, ?_⟩
      · simp only [DeltaBuilder.run, List.foldlM_cons, DeltaBuilder.replace, hd, if_neg hr] at a1 ⊢
        simpa using a1
      · rw [a5]
        simp only [b2, elsText_append, hb1.2.2, replaced, elsText_insert, elsText_nil, List.append_nil,
          List.append_assoc]
        rfl

theorem DeltaBuilder.build_spec (base : List α) (b : DeltaBuilder α) (h1 : b.delta.baseLen = base.length)
    (h2 : b.lastOffset ≤ base.length) (h3 : ElsWF b.lastOffset 0 b.delta.els) :
    b.build.WF ∧ b.build.baseLen = base.length ∧
      b.build.result base = elsText base b.delta.els ++ base.drop b.lastOffset := by
  unfold DeltaBuilder.build
  by_cases hlt : b.lastOffset < b.delta.baseLen
  · simp only [if_pos hlt]
    refine ⟨h3.pushCopyEnd _ hlt, h1, ?_⟩
    simp [Delta.result, h1]
  · simp only [if_neg hlt]
    have : b.lastOffset = base.length := by omega
    refine ⟨?_, h1, ?_⟩
    · rw [Delta.WF, h1, ← this]; exact h3
    · simp [Delta.result, this]

/-! ### Lengths and summary -/

theorem totalElementLen_go (els : List (DeltaElement α)) (k : Nat) :
    els.foldl (fun sum el => sum + match el with
      | .copy b e => e - b
      | .insert n => n.length) k = k + (elsMask els).length := by
  induction els generalizing k with
  | nil => simp
  | cons el els ih =>
    rw [List.foldl_cons, ih]
    cases el <;> simp [Nat.add_assoc]

theorem totalElementLen_eq (els : List (DeltaElement α)) : Delta.totalElementLen els = (elsMask els).length := by
  exact (totalElementLen_go els 0).trans (by simp)

theorem elsText_length {base : List α} {els : List (DeltaElement α)}
    (h : ∀ el ∈ els, InRange base.length el) : (elsText base els).length = (elsMask els).length := by
  induction els with
  | nil => rfl
  | cons el els ih =>
    have ih := ih (fun el hel => h el (by simp [hel]))
    have hel := h el (by simp)
    cases el with
    | copy b e => have := hel.2; simp [ih]; omega
    | insert s => simp [ih]

theorem insertsLen_eq (d : Delta α) : d.insertsLen = (elsIns d.els).length := by
  have gen : ∀ (els : List (DeltaElement α)) k, els.foldl (fun sum el => sum + match el with
      | .copy _ _ => 0
      | .insert n => n.length) k = k + (elsIns els).length := by
    intro els
    induction els with
    | nil => simp
    | cons el els ih => intro k; rw [List.foldl_cons, ih]; cases el <;> simp [Nat.add_assoc]
  exact (gen d.els 0).trans (by simp)

/-- The tail part of `summary`. -/
def summaryTail (n : Nat) (els : List (DeltaElement α)) : Nat × List (DeltaElement α) :=
  match els.getLast? with
  | some (.copy b e) => if e = n then (b, els.dropLast) else (n, els)
  | _ => (n, els)

theorem ElsWF.getLast_ge {n lo} : ∀ {els : List (DeltaElement α)} {b e}, ElsWF n lo els →
    els.getLast? = some (.copy b e) → lo ≤ b ∧ b < e ∧ ElsWF b lo els.dropLast := by
  intro els
  induction els generalizing lo with
  | nil => intro b e h h1; simp at h1
  | cons el els ih =>
    intro b e h h1
    cases els with
    | nil =>
      simp at h1; subst h1
      exact ⟨h.1, h.2.1, h.1⟩
    | cons el' els' =>
      rw [List.getLast?_cons_cons] at h1
      cases el with
      | copy b' e' =>
        obtain ⟨a1, a2, a3⟩ := ih h.2.2 h1
        have := h.1; have := h.2.1
        refine ⟨by omega, a2, ?_⟩
        rw [List.dropLast_cons_of_ne_nil (by simp)]
        exact ⟨h.1, h.2.1, a3⟩
      | insert s =>
        obtain ⟨a1, a2, a3⟩ := ih h.2 h1
        refine ⟨a1, a2, ?_⟩
        rw [List.dropLast_cons_of_ne_nil (by simp)]
        exact ⟨h.1, a3⟩

theorem summaryTail_spec {base : List α} {lo} {els : List (DeltaElement α)} (h : ElsWF base.length lo els) :
    lo ≤ (summaryTail base.length els).1 ∧ (summaryTail base.length els).1 ≤ base.length ∧
      ElsWF base.length lo (summaryTail base.length els).2 ∧
    elsText base els = elsText base (summaryTail base.length els).2 ++ base.drop (summaryTail base.length els).1 := by
  unfold summaryTail
  split
  · rename_i b e hl
    obtain ⟨a1, a2, a3⟩ := h.getLast_ge hl
    by_cases he : e = base.length
    · simp only [if_pos he]
      refine ⟨a1, by omega, a3.mono (by omega), ?_⟩
      have hsplit : els = els.dropLast ++ [.copy b e] := by
        obtain ⟨ys, hys⟩ := List.getLast?_eq_some_iff.1 hl
        rw [hys]; simp
      conv => lhs; rw [hsplit]
      simp [he]
    · simp only [if_neg he]
      exact ⟨h.lo_le, Nat.le_refl _, h, by simp⟩
  · exact ⟨h.lo_le, Nat.le_refl _, h, by simp⟩

theorem Delta.summary_eq (d : Delta α) : ∃ ivStart els, d.summary =
    ((ivStart, (summaryTail d.baseLen els).1), Delta.totalElementLen (summaryTail d.baseLen els).2) ∧
    ((∃ rest, d.els = .copy 0 ivStart :: rest ∧ els = rest) ∨ (ivStart = 0 ∧ els = d.els)) := by
  rcases d with ⟨els, n⟩
  have key : ∀ els' : List (DeltaElement α),
      (match els'.getLast? with
        | some (.copy b e) => if e = n then (b, els'.dropLast) else (n, els')
        | _ => (n, els')) = summaryTail n els' := fun els' => rfl
  cases els with
  | nil => exact ⟨0, [], rfl, Or.inr ⟨rfl, rfl⟩⟩
  | cons el rest =>
    cases el with
    | insert s =>
      refine ⟨0, _, ?_, Or.inr ⟨rfl, rfl⟩⟩
      simp only [Delta.summary]; rfl
    | copy b e =>
      cases b with
      | zero =>
        refine ⟨e, rest, ?_, Or.inl ⟨rest, rfl, rfl⟩⟩
        simp only [Delta.summary]; rfl
      | succ b =>
        refine ⟨0, _, ?_, Or.inr ⟨rfl, rfl⟩⟩
        simp only [Delta.summary]; rfl

theorem Delta.summary_spec (d : Delta α) (base : List α) (h : d.WF) (hl : base.length = d.baseLen) :
    d.summary.1.1 ≤ d.summary.1.2 ∧ d.summary.1.2 ≤ base.length ∧
    ∃ mid, mid.length = d.summary.2 ∧
      d.result base = base.take d.summary.1.1 ++ mid ++ base.drop d.summary.1.2 := by
  obtain ⟨s, els, h1, h2⟩ := d.summary_eq
  rw [h1, ← hl]
  simp only
  have hw : ElsWF base.length s els ∧ s ≤ base.length ∧ d.result base = base.take s ++ elsText base els := by
    rcases h2 with ⟨rest, h3, rfl⟩ | ⟨rfl, rfl⟩
    · have hwf := h
      rw [Delta.WF, h3, ← hl] at hwf
      obtain ⟨_, _, h4⟩ := hwf
      exact ⟨h4, h4.lo_le, by simp [Delta.result, h3]⟩
    · refine ⟨?_, by omega, by simp [Delta.result]⟩
      rw [hl]; exact h
  obtain ⟨a1, a2, a3, a4⟩ := summaryTail_spec hw.1
  refine ⟨a1, a2, elsText base (summaryTail base.length els).2, ?_, ?_⟩
  · rw [elsText_length a3.inRange, totalElementLen_eq]
  · rw [hw.2.2, a4, List.append_assoc]

/-! ### Transformer -/

theorem transformGo_ge (ix : Nat) (after : Bool) (els : List (DeltaElement α)) (r : Nat) :
    r ≤ Delta.transformGo ix after els r := by
  induction els generalizing r with
  | nil => exact Nat.le_refl _
  | cons el els ih =>
    cases el with
    | copy b e =>
      simp only [Delta.transformGo]
      split
      · exact Nat.le_refl _
      · split
        · omega
        · have := ih (r + (e - b)); omega
    | insert n => simp only [Delta.transformGo]; have := ih (r + n.length); omega

theorem transformGo_mono {n lo} (els : List (DeltaElement α)) (h : ElsWF n lo els) (after : Bool)
    {i j : Nat} (hij : i ≤ j) (r : Nat) : Delta.transformGo i after els r ≤ Delta.transformGo j after els r := by
  induction els generalizing r lo with
  | nil => exact Nat.le_refl _
  | cons el els ih =>
    cases el with
    | insert s => exact ih h.2 _
    | copy b e =>
      obtain ⟨h1, h2, h3⟩ := h
      simp only [Delta.transformGo]
      by_cases hib : i ≤ b
      · rw [if_pos hib]
        exact transformGo_ge j after (.copy b e :: els) r
      · rw [if_neg hib, if_neg (show ¬ j ≤ b by omega)]
        cases after with
        | true =>
          by_cases hie : i < e
          · simp only [hie, decide_true, Bool.true_or, if_true]
            by_cases hje : j < e
            · simp only [hje, decide_true, Bool.true_or, if_true]; omega
            · simp [hje]
              have := transformGo_ge j true els (r + (e - b)); omega
          · simp [hie, show ¬ j < e by omega]
            exact ih h3 _
        | false =>
          by_cases hie : i ≤ e
          · have : (decide (i < e) || (i == e && !false)) = true := by simp; omega
            rw [if_pos this]
            by_cases hje : j ≤ e
            · have : (decide (j < e) || (j == e && !false)) = true := by simp; omega
              rw [if_pos this]; omega
            · have : (decide (j < e) || (j == e && !false)) = false := by simp; omega
              rw [this]
              have := transformGo_ge j false els (r + (e - b))
              simp; omega
          · have h4 : (decide (i < e) || (i == e && !false)) = false := by simp; omega
            have h5 : (decide (j < e) || (j == e && !false)) = false := by simp; omega
            rw [h4, h5]
            simp
            exact ih h3 _

theorem transformGo_after_mono {n lo} (els : List (DeltaElement α)) (h : ElsWF n lo els) (i r : Nat) :
    Delta.transformGo i false els r ≤ Delta.transformGo i true els r := by
  induction els generalizing r lo with
  | nil => exact Nat.le_refl _
  | cons el els ih =>
    cases el with
    | insert s => exact ih h.2 _
    | copy b e =>
      obtain ⟨h1, h2, h3⟩ := h
      simp only [Delta.transformGo]
      by_cases hib : i ≤ b
      · rw [if_pos hib, if_pos hib]; exact Nat.le_refl _
      · rw [if_neg hib, if_neg hib]
        by_cases hie : i < e
        · simp [hie]
        · by_cases heq : i = e
          · subst heq
            simp
            have := transformGo_ge i true els (r + (i - b)); omega
          · simp [hie, heq]; exact ih h3 _

/-- All the elements in `pre` are passed when `ix` is not before their end. -/
theorem transformGo_true_append {n lo} (pre post : List (DeltaElement α)) {ix : Nat}
    (h : ElsWF n lo pre) (hix : n ≤ ix) (r : Nat) :
    Delta.transformGo ix true (pre ++ post) r =
      Delta.transformGo ix true post (r + (elsMask pre).length) := by
  induction pre generalizing lo r with
  | nil => simp
  | cons el pre ih =>
    cases el with
    | insert s => simp [Delta.transformGo, ih h.2, Nat.add_assoc]
    | copy b e =>
      obtain ⟨h1, h2, h3⟩ := h
      have := h3.lo_le
      simp [Delta.transformGo, ih h3, show ¬ ix ≤ b by omega, show ¬ ix < e by omega, Nat.add_assoc]

theorem transformGo_false_append {n lo} (pre post : List (DeltaElement α)) {ix : Nat}
    (h : ElsWF n lo pre) (hix : n < ix) (r : Nat) :
    Delta.transformGo ix false (pre ++ post) r =
      Delta.transformGo ix false post (r + (elsMask pre).length) := by
  induction pre generalizing lo r with
  | nil => simp
  | cons el pre ih =>
    cases el with
    | insert s => simp [Delta.transformGo, ih h.2, Nat.add_assoc]
    | copy b e =>
      obtain ⟨h1, h2, h3⟩ := h
      have := h3.lo_le
      simp [Delta.transformGo, ih h3, show ¬ ix ≤ b by omega, show ¬ ix < e by omega,
        show ix ≠ e by omega, Nat.add_assoc]

theorem ElsWF.split_copy {n lo b e} {post : List (DeltaElement α)} : ∀ {pre : List (DeltaElement α)},
    ElsWF n lo (pre ++ .copy b e :: post) → ElsWF b lo pre ∧ b < e ∧ ElsWF n e post := by
  intro pre
  induction pre generalizing lo with
  | nil => intro h; exact ⟨h.1, h.2.1, h.2.2⟩
  | cons el pre ih =>
    intro h
    cases el with
    | insert s => have := ih h.2; exact ⟨⟨h.1, this.1⟩, this.2⟩
    | copy b' e' => have := ih h.2.2; exact ⟨⟨h.1, h.2.1, this.1⟩, this.2⟩

theorem untouchedGo_spec {n lo} (s t : Nat) : ∀ (els : List (DeltaElement α)) (ins : Bool),
    ElsWF n lo els → (ins = false → t ≤ lo) → Delta.untouchedGo s t els ins = true →
    ∃ pre b e post, els = pre ++ .copy b e :: post ∧ b < s ∧ t ≤ e := by
  intro els
  induction els generalizing lo with
  | nil => intro ins _ _ h; simp [Delta.untouchedGo] at h
  | cons el els ih =>
    intro ins hw hi h
    cases el with
    | insert x =>
      simp only [Delta.untouchedGo] at h
      obtain ⟨pre, b, e, post, h1, h2⟩ := ih true hw.2 (by simp) h
      exact ⟨.insert x :: pre, b, e, post, by simp [h1], h2⟩
    | copy b e =>
      obtain ⟨h1, h2, h3⟩ := hw
      simp only [Delta.untouchedGo] at h
      by_cases hte : t ≤ e
      · rw [if_pos hte] at h
        cases ins with
        | true =>
          by_cases hsb : s > b
          · exact ⟨[], b, e, els, rfl, hsb, hte⟩
          · simp [hsb] at h
            obtain ⟨pre, b', e', post, g1, g2⟩ := ih false h3 (fun _ => hte) h
            exact ⟨.copy b e :: pre, b', e', post, by simp [g1], g2⟩
        | false =>
          have := hi rfl
          simp [show t ≤ b by omega] at h
          obtain ⟨pre, b', e', post, g1, g2⟩ := ih false h3 (fun _ => hte) h
          exact ⟨.copy b e :: pre, b', e', post, by simp [g1], g2⟩
      · rw [if_neg hte] at h; simp at h

end Xi
