import Verif.Rope.EngineMask

/-!
# Deltas that only insert: synthesised and factored again
-/

namespace Xi

variable {α : Type}

theorem ElsWF.zeros_le {n lo} {els : List (DeltaElement α)} (h : ElsWF n lo els) :
    zeros (elsMask els) ≤ n - lo ∧ (zeros (elsMask els) = n - lo → Contig lo n els) := by
  induction els generalizing lo with
  | nil => have h : lo ≤ n := h; simp [Contig]; omega
  | cons el els ih =>
    cases el with
    | copy b e =>
      have h1 := ih h.2.2
      have h2 := h.1; have h3 := h.2.1; have h4 := h.2.2.lo_le
      simp only [elsMask_copy, zeros_append, zeros_replicate_zero, Contig]
      refine ⟨by omega, ?_⟩
      intro h5
      exact ⟨by omega, by omega, h1.2 (by omega)⟩
    | insert s =>
      have h1 := ih h.2
      simp only [elsMask_insert, zeros_append, zeros_replicate_ne (by simp : (1:Nat) ≠ 0), Nat.zero_add, Contig]
      exact h1

/-- State of `factor` on a delta that copies everything. -/
structure FactorAll (st : Delta.FactorState α) (els : List (DeltaElement α)) : Prop where
  contig : Contig 0 st.b1 st.ins
  pos : ∀ el ∈ st.ins, PosEl el
  le : st.b1 ≤ st.e1
  mask : elsMask st.ins ++ List.replicate (st.e1 - st.b1) 0 = elsMask els
  ins : elsIns st.ins = elsIns els
  sb : st.sb.Ok []

theorem factorAll_fold {n : Nat} : ∀ (els done : List (DeltaElement α)) (st : Delta.FactorState α),
    FactorAll st done → Contig st.e1 n els → ElsWF n st.e1 els →
    ∃ st', els.foldlM Delta.factorStep st = some st' ∧ st'.e1 = n ∧ FactorAll st' (done ++ els) := by
  intro els
  induction els with
  | nil => intro done st h hc hw; exact ⟨st, rfl, hc, by simpa using h⟩
  | cons el els ih =>
    intro done st h hc hw
    cases el with
    | copy b e =>
      obtain ⟨h1, h2, h3⟩ := hc
      obtain ⟨w1, w2, w3⟩ := hw
      subst h1
      obtain ⟨sb', g1, g2⟩ := h.sb.addRange (Nat.zero_le st.e1) (Nat.le_refl _) 1
      rw [if_pos rfl] at g2
      have := h.le
      obtain ⟨st', k1, k2, k3⟩ := ih (done ++ [.copy st.e1 e]) { st with sb := sb', e1 := e } (by
        refine ⟨h.contig, h.pos, ?_, ?_, ?_, g2⟩
        · show st.b1 ≤ e; omega
        · show elsMask st.ins ++ List.replicate (e - st.b1) 0 = _
          rw [elsMask_append, ← h.mask]
          simp [List.replicate_append_replicate]; omega
        · rw [h.ins]; simp) h3 w3
      refine ⟨st', ?_, k2, by simpa using k3⟩
      simp [Delta.factorStep, g1, k1]
    | insert s =>
      obtain ⟨w1, w2⟩ := hw
      have hle := h.le
      let st1 : Delta.FactorState α := { st with
        ins := (if st.e1 > st.b1 then st.ins ++ [.copy st.b1 st.e1] else st.ins) ++ [.insert s], b1 := st.e1 }
      have hst1 : FactorAll st1 (done ++ [.insert s]) := by
        by_cases hlt : st.e1 > st.b1
        · refine ⟨?_, ?_, Nat.le_refl _, ?_, ?_, h.sb⟩
          · simp only [st1, if_pos hlt]
            exact (h.contig.append (contig_copy (by omega))).append (by simp [Contig])
          · intro el hel
            simp only [st1, if_pos hlt, List.mem_append, List.mem_singleton] at hel
            rcases hel with (hel | rfl) | rfl
            · exact h.pos el hel
            · exact hlt
            · exact w1
          · simp only [st1, if_pos hlt]
            rw [elsMask_append, elsMask_append _ [DeltaElement.insert s], ← h.mask]; simp
          · simp only [st1, if_pos hlt]; simp [h.ins]
        · have he : st.b1 = st.e1 := by omega
          refine ⟨?_, ?_, Nat.le_refl _, ?_, ?_, h.sb⟩
          · simp only [st1, if_neg hlt]
            exact (he ▸ h.contig).append (by simp [Contig])
          · intro el hel
            simp only [st1, if_neg hlt, List.mem_append, List.mem_singleton] at hel
            rcases hel with hel | rfl
            · exact h.pos el hel
            · exact w1
          · simp only [st1, if_neg hlt]
            have := h.mask
            rw [he] at this
            simp at this
            simp [this]
          · simp only [st1, if_neg hlt]; simp [h.ins]
      obtain ⟨st', k1, k2, k3⟩ := ih (done ++ [.insert s]) st1 hst1 hc w2
      refine ⟨st', ?_, k2, by simpa using k3⟩
      simp only [List.foldlM_cons, Delta.factorStep, Option.bind_eq_bind, Option.bind_some]
      exact k1

/-- Factoring a delta that keeps all of its base. -/
theorem Delta.factor_all (d : Delta α) (hw : d.WF) (hc : Contig 0 d.baseLen d.els) :
    ∃ ins del, d.factor = some (ins, del) ∧
      ins.Denotes d.baseLen (elsMask d.els) (elsIns d.els) ∧ ins.Pos := by
  obtain ⟨st, h1, h2, h3⟩ := factorAll_fold (n := d.baseLen) d.els [] ⟨[], SubsetBuilder.new, 0, 0⟩
    ⟨by simp [Contig], by simp, by simp, by simp, by simp, SubsetBuilder.ok_new⟩ hc hw
  obtain ⟨sb1, a1, a2⟩ := h3.sb.addRange (Nat.zero_le st.e1) (Nat.le_refl _) 1
  rw [if_pos rfl] at a2
  obtain ⟨sb2, b1, b2⟩ := a2.pad d.baseLen
  have hle := h3.le
  rw [List.nil_append] at h3
  by_cases hlt : st.b1 < d.baseLen
  · refine ⟨⟨⟨st.ins ++ [.copy st.b1 d.baseLen], d.baseLen⟩⟩, sb2.build, ?_, ⟨rfl, ?_, ?_, ?_⟩, ?_⟩
    · rw [h2] at a1
      simp [Delta.factor, h1, h2, a1, b1, if_pos hlt]
    · exact h3.contig.append (contig_copy (by omega))
    · have := h3.mask
      rw [h2] at this
      simpa using this
    · simpa using h3.ins
    · intro el hel
      simp only [List.mem_append, List.mem_singleton] at hel
      rcases hel with hel | rfl
      · exact h3.pos el hel
      · exact hlt
  · have he : st.b1 = d.baseLen := by omega
    refine ⟨⟨⟨st.ins, d.baseLen⟩⟩, sb2.build, ?_, ⟨rfl, ?_, ?_, ?_⟩, h3.pos⟩
    · rw [h2] at a1
      simp [Delta.factor, h1, h2, a1, b1, if_neg hlt]
    · exact he ▸ h3.contig
    · have := h3.mask
      rw [h2, he] at this
      simpa using this
    · exact h3.ins

theorem zeros_ones (F : List Nat) : zeros (ones F) = zeros F := by
  rw [ones, zeros, List.countP_map, zeros]
  apply List.countP_congr
  intro x _
  by_cases h : x = 0 <;> simp [h]

theorem keep_ones_inserted {γ : Type} : ∀ (I : List Nat) (base s : List γ), base.length = zeros I →
    s.length = I.length - zeros I → keep (flipMask I) (weave I base s) = s := by
  intro I base s h1 h2
  exact keep_flip_weave I base s h1 h2

/-- `synthesize` from more to fewer deletions, on a labelled list, followed by
`factor`: the insertion of what only the first deletes. -/
theorem synth_factor {β : Type} (L : List β) (f t : β → Nat) (v : β → α) {F T : Subset}
    (hF : F.Is (L.map f)) (hT : T.Is (L.map t)) (hle : ∀ c ∈ L, t c ≠ 0 → f c ≠ 0) :
    ∃ d ins del, Delta.synthesize (keep (flipMask (L.map f)) (L.map v)) F T = some d ∧
      d.factor = some (ins, del) ∧ ins.Pos ∧
      ins.Denotes (L.filter (fun c => f c == 0)).length
        ((L.filter (fun c => t c == 0)).map (fun c => if f c = 0 then 0 else 1))
        ((L.filter (fun c => t c == 0 && f c != 0)).map v) := by
  obtain ⟨d, h1, h2, h3, h4, h5⟩ := Delta.synthesize_mask F T (L.map v) (by rw [hF.2]; simp) (by rw [hT.2]; simp)
  rw [hF.2] at h1 h3 h4 h5
  rw [hT.2] at h4 h5
  have hm : elsMask d.els = (L.filter (fun c => t c == 0)).map (fun c => if f c = 0 then 0 else 1) := by
    rw [h5, ones, List.map_map, keep_map]; rfl
  have hb : d.baseLen = (L.filter (fun c => f c == 0)).length := by
    rw [h3, keep_map]; simp
  have hz : zeros (elsMask d.els) = d.baseLen := by
    rw [hm, hb, zeros_map, List.filter_filter]
    congr 1
    apply List.filter_congr
    intro c hc
    by_cases hf : f c = 0
    · have : t c = 0 := by
        by_cases ht : t c = 0
        · exact ht
        · exact absurd hf (hle c hc ht)
      simp [hf, this]
    · simp [hf]
  have hc := (ElsWF.zeros_le h2).2 (by rw [hz]; simp)
  obtain ⟨ins, del, g1, g2, g3⟩ := Delta.factor_all d h2 hc
  refine ⟨d, ins, del, h1, g1, g3, ?_⟩
  rw [hm, hb] at g2
  have ht := g2.apply (base := keep (L.map f) (L.map v)) (by rw [keep_map]; simp)
  have : elsIns d.els = (L.filter (fun c => t c == 0 && f c != 0)).map v := by
    have hr : d.result (keep (L.map f) (L.map v)) = weave (elsMask d.els) (keep (L.map f) (L.map v)) (elsIns d.els) := by
      have hc' : Contig 0 (keep (L.map f) (L.map v)).length d.els := by rw [← h3]; exact hc
      rw [Delta.result, hc'.text]
      simp
    rw [hr] at h4
    have h6 := congrArg (keep (flipMask (elsMask d.els))) h4
    rw [keep_flip_weave _ _ _ (by rw [hz, h3]) (by rw [elsIns_length])] at h6
    rw [h6, hm, keep_map, flipMask_map, keep_map, List.filter_filter]
    congr 1
    apply List.filter_congr
    intro c hc
    by_cases hf : f c = 0 <;> simp [hf]
  rw [this] at g2
  exact g2

end Xi
