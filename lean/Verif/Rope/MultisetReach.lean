import Verif.Rope.MultisetLemmas

/-! # Reachable subsets are in normal form -/

namespace Xi


theorem SubsetBuilder.pushSegment_normal {sb sb' : SubsetBuilder} {len count}
    (h : NormalSegs sb.segments) (hp : sb.pushSegment len count = some sb') :
    NormalSegs sb'.segments := by
  unfold SubsetBuilder.pushSegment at hp
  split at hp
  · cases hp; exact h.pushLast (by assumption)
  · cases hp

theorem foldlM_option_inv {σ γ : Type} (P : σ → Prop) (f : σ → γ → Option σ)
    (hf : ∀ s z s', P s → f s z = some s' → P s') (l : List γ) :
    ∀ s s', P s → l.foldlM f s = some s' → P s' := by
  induction l with
  | nil => intro s s' h e; cases e; exact h
  | cons z l ih =>
    intro s s' h e
    simp only [List.foldlM_cons, Option.bind_eq_bind, Option.bind_eq_some_iff] at e
    obtain ⟨s1, e1, e2⟩ := e
    exact ih _ _ (hf _ _ _ h e1) e2

theorem SubsetBuilder.padToLen_normal {sb sb' : SubsetBuilder} {n}
    (h : NormalSegs sb.segments) (hp : sb.padToLen n = some sb') : NormalSegs sb'.segments := by
  unfold SubsetBuilder.padToLen at hp
  split at hp
  · exact pushSegment_normal h hp
  · cases hp; exact h

theorem SubsetBuilder.Reach.normal {sb : SubsetBuilder} (h : sb.Reach) : NormalSegs sb.segments := by
  induction h with
  | new => trivial
  | push _ hp ih => exact pushSegment_normal ih hp
  | pad _ hp ih => exact padToLen_normal ih hp
  | addRange _ hp ih =>
    unfold SubsetBuilder.addRange at hp
    split at hp
    · cases hp
    · split at hp
      · cases hp; exact ih
      · split at hp
        · simp only [Option.bind_eq_bind, Option.bind_eq_some_iff] at hp
          obtain ⟨sb1, e1, e2⟩ := hp
          exact pushSegment_normal (pushSegment_normal ih e1) e2
        · exact pushSegment_normal ih hp

theorem consume_normal (fuel) : ∀ (sb : SubsetBuilder) segs cur need st, NormalSegs sb.segments →
    Subset.consume fuel sb segs cur need = some st → NormalSegs st.sb.segments := by
  induction fuel with
  | zero => intro _ _ _ _ _ _ e; cases e
  | succ fuel ih =>
    intro sb segs cur need st h e
    unfold Subset.consume at e
    split at e
    · cases e; exact h
    · split at e
      · split at e
        · cases e
        · simp only [Option.bind_eq_bind, Option.bind_some, Option.bind_eq_some_iff] at e
          obtain ⟨sb1, e2, e3⟩ := e
          exact ih _ _ _ _ _ (SubsetBuilder.pushSegment_normal h e2) e3
      · simp only [Option.bind_eq_bind, Option.bind_some, Option.bind_eq_some_iff] at e
        obtain ⟨sb1, e2, e3⟩ := e
        exact ih _ _ _ _ _ (SubsetBuilder.pushSegment_normal h e2) e3

theorem transform_normal {a b r : Subset} {u} (e : a.transform b u = some r) : r.Normal := by
  unfold Subset.transform at e
  simp only [Option.bind_eq_bind, Option.bind_eq_some_iff] at e
  obtain ⟨st, e1, e2⟩ := e
  split at e2
  · cases e2
    refine foldlM_option_inv (fun (st : Subset.TState) => NormalSegs st.sb.segments) _ ?_ _ _ _ ?_ e1
    · intro s z s' h e
      unfold Subset.transformStep at e
      split at e
      · simp only [Option.bind_eq_bind, Option.bind_eq_some_iff] at e
        obtain ⟨sb, e1, e2⟩ := e
        cases e2
        exact SubsetBuilder.pushSegment_normal h e1
      · exact consume_normal _ _ _ _ _ _ h e
    · trivial
  · cases e2

theorem Subset.Reach.normal {s : Subset} (h : s.Reach) : s.Normal := by
  cases h with
  | build h => exact h.normal
  | new h =>
    simp only [Subset.new, Option.bind_eq_bind, Option.bind_eq_some_iff] at h
    obtain ⟨sb, e1, e2⟩ := h
    cases e2
    exact SubsetBuilder.padToLen_normal (sb := .new) trivial e1
  | union _ _ h =>
    simp only [Subset.union, Option.bind_eq_bind, Option.bind_eq_some_iff] at h
    obtain ⟨zs, _, sb, e1, e2⟩ := h
    cases e2
    exact foldlM_option_inv (fun (sb : SubsetBuilder) => NormalSegs sb.segments) _
      (fun _ _ _ h e => SubsetBuilder.pushSegment_normal h e) _ SubsetBuilder.new _ trivial e1
  | bitxor _ _ h =>
    simp only [Subset.bitxor, Option.bind_eq_bind, Option.bind_eq_some_iff] at h
    obtain ⟨zs, _, sb, e1, e2⟩ := h
    cases e2
    exact foldlM_option_inv (fun (sb : SubsetBuilder) => NormalSegs sb.segments) _
      (fun _ _ _ h e => SubsetBuilder.pushSegment_normal h e) _ SubsetBuilder.new _ trivial e1
  | subtract _ _ h =>
    simp only [Subset.subtract, Option.bind_eq_bind, Option.bind_eq_some_iff] at h
    obtain ⟨zs, _, sb, e1, e2⟩ := h
    cases e2
    refine foldlM_option_inv (fun (sb : SubsetBuilder) => NormalSegs sb.segments) _
      (fun _ _ _ h e => ?_) _ SubsetBuilder.new _ trivial e1
    split at e
    · exact SubsetBuilder.pushSegment_normal h e
    · cases e
  | transformShrink _ _ h =>
    simp only [Subset.transformShrink, Option.bind_eq_bind, Option.bind_eq_some_iff] at h
    obtain ⟨zs, _, sb, e1, e2⟩ := h
    cases e2
    refine foldlM_option_inv (fun (sb : SubsetBuilder) => NormalSegs sb.segments) _
      (fun _ _ _ h e => ?_) _ SubsetBuilder.new _ trivial e1
    split at e
    · exact SubsetBuilder.pushSegment_normal h e
    · cases e; exact h
  | complement _ h =>
    simp only [Subset.complement, Option.bind_eq_bind, Option.bind_eq_some_iff] at h
    obtain ⟨sb, e1, e2⟩ := h
    cases e2
    refine foldlM_option_inv (fun (sb : SubsetBuilder) => NormalSegs sb.segments) _
      (fun _ _ _ h e => ?_) _ SubsetBuilder.new _ trivial e1
    split at e <;> exact SubsetBuilder.pushSegment_normal h e
  | transformExpand _ _ h => exact transform_normal h
  | transformUnion _ _ h => exact transform_normal h

end Xi
