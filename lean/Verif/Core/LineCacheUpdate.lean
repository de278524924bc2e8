import Verif.Core.LineCacheLemmas

/-! # What an update does to the front end's lines -/

namespace Xi

/-- The front end has the text and the styles of a line. -/
def hasText : Option (Nat × Validity) → Bool
  | none => false
  | some (_, v) => v.text && v.styles

/-- The new entry of line `i` in the shadow. -/
def newEntry (i : Nat) (x : Option (Nat × Validity) × RenderTactic) : Option (Nat × Validity) :=
  if x.2 = .discard then none
  else if hasText x.1 then x.1.map fun p => (i, p.2)
  else if x.2 = .preserve then none
  else some (i, .all)

section

variable {T S : Type} (m : Missing) (cur : List (ScreenLine T S)) (client : List (Option (ScreenLine T S)))

/-- The cursors sent for line `i`. -/
def sentCursor (i : Nat) : Option (List Nat) := cur[i]?.bind fun l => encodeCursor l.cursor

/-- A line the front end has already. -/
def keptLine (i : Nat) (p : Nat × Validity) : Option (ScreenLine T S) :=
  if p.2.cursor then client[p.1]?.join else m.line client[p.1]?.join (sentCursor cur i)

/-- The new line `i` of the front end. -/
def newLine (i : Nat) (x : Option (Nat × Validity) × RenderTactic) : Option (ScreenLine T S) :=
  if x.2 = .discard then none
  else if hasText x.1 then x.1.bind (keptLine m cur client i)
  else if x.2 = .preserve then none
  else cur[i]?

/-- The valid lines come in the order of the front end. -/
def Ascending : Nat → List (Option (Nat × Validity)) → Prop
  | _, [] => True
  | ln, none :: r => Ascending ln r
  | ln, some (k, _) :: r => ln ≤ k ∧ Ascending (k + 1) r

theorem Ascending.mono : ∀ {l : List (Option (Nat × Validity))} {a b : Nat}, a ≤ b → Ascending b l → Ascending a l
  | [], _, _, _, _ => trivial
  | none :: r, _, _, h, g => Ascending.mono (l := r) h g
  | some (_, _) :: _, _, _, h, g => ⟨by have := g.1; omega, g.2⟩

theorem Ascending.span : ∀ {n k ln : Nat} {v : Validity} {r : List (Option (Nat × Validity))}, 0 < n → v ≠ .invalid →
    Ascending ln (spanLines n k v ++ r) → ln ≤ k ∧ Ascending (k + n) r
  | 1, k, ln, v, r, _, h, g => by
    simp only [spanLines, entry, if_neg h, List.cons_append, List.nil_append] at g
    exact g
  | n + 2, k, ln, v, r, _, h, g => by
    rw [spanLines] at g
    simp only [entry, if_neg h, List.cons_append] at g
    obtain ⟨_, g2⟩ := Ascending.span (n := n + 1) (k := k + 1) (by omega) h g.2
    exact ⟨g.1, by rwa [show k + (n + 2) = k + 1 + (n + 1) by omega]⟩

theorem Ascending.drop : ∀ {a r : List (Option (Nat × Validity))} {ln : Nat}, Ascending ln (a ++ r) → Ascending ln r
  | [], _, _, g => g
  | none :: a, _, _, g => Ascending.drop (a := a) g
  | some (k, _) :: a, r, ln, g => by
    have := Ascending.drop (a := a) (r := r) g.2
    exact this.mono (by have := g.1; omega)

theorem mapIdx_off {α β : Type} (f : Nat → α → β) (o : Nat) (a b : List α) : (a ++ b).mapIdx (fun i x => f (o + i) x) =
    a.mapIdx (fun i x => f (o + i) x) ++ b.mapIdx (fun i x => f (o + a.length + i) x) := by
  rw [List.mapIdx_append]
  congr 2
  funext i x
  congr 1
  omega

theorem segLines_cons (g : PlanSegment) (segs : List PlanSegment) :
    segLines (g :: segs) = (spanLines g.n g.theirs g.validity).map (fun e => (e, g.tactic)) ++ segLines segs := by simp [segLines]

theorem segLines_fst (segs : List PlanSegment) : (segLines segs).map Prod.fst = segs.flatMap fun g => spanLines g.n g.theirs g.validity := by
  induction segs with
  | nil => rfl
  | cons g segs ih =>
    rw [segLines_cons, List.map_append, ih]
    simp [Function.comp_def]

theorem hasText_entry (k : Nat) (v : Validity) : hasText (entry k v) = (v.text && v.styles) := by
  unfold entry
  split
  · rename_i h
    subst h
    rfl
  · rfl

theorem mapIdx_span {β : Type} (f : Nat → Option (Nat × Validity) × RenderTactic → β) (n k : Nat) (v : Validity) (t : RenderTactic) (o : Nat)
    {r : List β} (hr : r.length = n) (h : ∀ i, i < n → r[i]? = some (f (o + i) (entry (k + i) v, t))) :
    ((spanLines n k v).map (fun e => (e, t))).mapIdx (fun i x => f (o + i) x) = r := by
  apply List.ext_getElem?
  intro i
  rw [List.getElem?_mapIdx, List.getElem?_map]
  by_cases hi : i < n
  · rw [spanLines_get hi, h i hi]
    rfl
  · rw [List.getElem?_eq_none (by simp; omega), List.getElem?_eq_none (by omega)]
    rfl

theorem encodeCursor_getD (c : List Nat) : (encodeCursor c).getD [] = c := by
  unfold encodeCursor
  cases c <;> rfl

theorem updateLoop_spec : ∀ (segs : List PlanSegment) (o : Nat) (b : List ShadowSpan) (ops : List (UpdateOp T S)) (ln : Nat),
    SegOrder o segs → Ascending ln ((segLines segs).map Prod.fst) → (∀ k v, some (k, v) ∈ (segLines segs).map Prod.fst → k < client.length) →
    o + (segLines segs).length ≤ cur.length → NoEmpty b → (∀ g ∈ segs, 0 < g.n) →
    ∃ b' ops', updateLoop cur segs b ops ln = some (b', ops ++ ops') ∧ NoEmpty b' ∧
      shadowLines b' = shadowLines b ++ (segLines segs).mapIdx (fun i x => newEntry (o + i) x) ∧
      applyUpdate m client ops' ln = some ((segLines segs).mapIdx fun i x => newLine m cur client (o + i) x) ∧
      ∀ op ∈ ops', 0 < op.count
  | [], o, b, ops, ln, _, _, _, _, hb, _ => ⟨b, [], by simp [updateLoop], hb, by simp [segLines], by simp [applyUpdate, segLines], by simp⟩
  | g :: segs, o, b, ops, ln, h1, h2, h3, h4, hb, h5 => by
    obtain ⟨h1, h1'⟩ := h1
    have hpos := h5 g (by simp)
    have h5' : ∀ g ∈ segs, 0 < g.n := fun x hx => h5 x (List.mem_cons_of_mem _ hx)
    rw [segLines_cons] at h2 h3 h4
    rw [List.map_append, List.map_map] at h2 h3
    have hm : (spanLines g.n g.theirs g.validity).map (Prod.fst ∘ fun e => (e, g.tactic)) = spanLines g.n g.theirs g.validity := by
      simp [Function.comp_def]
    rw [hm] at h2 h3
    rw [List.length_append, List.length_map, spanLines_length] at h4
    have h3' : ∀ k v, some (k, v) ∈ (segLines segs).map Prod.fst → k < client.length := fun k v hk => h3 k v (List.mem_append_right _ hk)
    have hsplit : ∀ {β : Type} (f : Nat → Option (Nat × Validity) × RenderTactic → β), (segLines (g :: segs)).mapIdx (fun i x => f (o + i) x) =
        ((spanLines g.n g.theirs g.validity).map (fun e => (e, g.tactic))).mapIdx (fun i x => f (o + i) x) ++
          (segLines segs).mapIdx (fun i x => f (o + g.n + i) x) := by
      intro β f
      rw [segLines_cons, mapIdx_off]
      simp
    rw [hsplit newEntry, hsplit (newLine m cur client)]
    simp only [updateLoop, h1]
    by_cases hd : g.tactic = .discard
    · rw [if_pos hd]
      obtain ⟨b', ops', e1, e2, e3, e4, e5⟩ := updateLoop_spec segs (o + g.n) (addSpan b g.n 0 .invalid) (ops ++ [.invalidate g.n]) ln h1' h2.drop h3'
        (by omega) (addSpan_noEmpty hb _ _ _) h5'
      refine ⟨b', .invalidate g.n :: ops', by rw [e1]; simp, e2, ?_, ?_, ?_⟩
      · rw [e3, addSpan_lines, List.append_assoc, mapIdx_span newEntry _ _ _ _ _ (r := spanLines g.n 0 .invalid) (by simp)]
        intro i hi
        rw [spanLines_get hi]
        simp [newEntry, hd, entry]
      · rw [applyUpdate, e4, mapIdx_span (newLine m cur client) _ _ _ _ _ (r := List.replicate g.n none) (by simp)]
        · rfl
        · intro i hi
          rw [List.getElem?_replicate, if_pos hi]
          simp [newLine, hd]
      · intro op hop
        rcases List.mem_cons.1 hop with rfl | hop
        · exact hpos
        · exact e5 op hop
    · rw [if_neg hd]
      by_cases ht : (g.validity.text && g.validity.styles) = true
      · have hv : g.validity ≠ .invalid := by
          rintro hv
          rw [hv] at ht
          exact absurd ht (by decide)
        have he : ∀ k, entry k g.validity = some (k, g.validity) := fun k => if_neg hv
        obtain ⟨a1, a2⟩ := h2.span hpos hv
        rw [if_pos ht, if_neg (by omega)]
        have hbound : g.theirs + g.n ≤ client.length := by
          have : some (g.theirs + (g.n - 1), g.validity) ∈ spanLines g.n g.theirs g.validity := by
            rw [← he]
            exact List.mem_of_getElem? (spanLines_get (by omega))
          have := h3 _ _ (List.mem_append_left _ this)
          omega
        obtain ⟨b', ops', e1, e2, e3, e4, e5⟩ := updateLoop_spec segs (o + g.n) (addSpan b g.n o g.validity) (ops ++ copyOps cur g ln) (g.theirs + g.n) h1' a2 h3'
          (by omega) (addSpan_noEmpty hb _ _ _) h5'
        have hcl : ∀ i, i < g.n → ((client.drop g.theirs).take g.n)[i]? = some (client[g.theirs + i]?.join) := by
          intro i hi
          rw [List.getElem?_take, if_pos hi, List.getElem?_drop, List.getElem?_eq_getElem (by omega)]
          rfl
        have hop : applyUpdate m client ((if g.validity.cursor then .copy g.n else .update (encodeCursors cur g.ours g.n)) :: ops') g.theirs =
            some (((spanLines g.n g.theirs g.validity).map (fun e => (e, g.tactic))).mapIdx (fun i x => newLine m cur client (o + i) x) ++
              (segLines segs).mapIdx (fun i x => newLine m cur client (o + g.n + i) x)) := by
          by_cases hc : g.validity.cursor = true
          · rw [if_pos hc, applyUpdate, if_pos hbound, e4,
              mapIdx_span (newLine m cur client) _ _ _ _ _ (r := (client.drop g.theirs).take g.n) (by simp; omega)]
            · rfl
            · intro i hi
              rw [hcl i hi, newLine, if_neg hd, hasText_entry, if_pos ht, he]
              simp [keptLine, hc]
          · have hl : (encodeCursors cur g.ours g.n).length = g.n := by
              simp [encodeCursors]
              omega
            rw [if_neg hc, applyUpdate, hl, if_pos hbound, e4,
              mapIdx_span (newLine m cur client) _ _ _ _ _ (r := List.zipWith m.line ((client.drop g.theirs).take g.n) (encodeCursors cur g.ours g.n))
                (by rw [List.length_zipWith, hl]; simp; omega)]
            · rfl
            · intro i hi
              rw [List.getElem?_zipWith, hcl i hi, newLine, if_neg hd, hasText_entry, if_pos ht, he]
              have : (encodeCursors cur g.ours g.n)[i]? = some (sentCursor cur (o + i)) := by
                rw [encodeCursors, List.getElem?_map, List.getElem?_take, if_pos hi, List.getElem?_drop, sentCursor, h1, List.getElem?_eq_getElem (by omega)]
                rfl
              rw [this]
              simp [keptLine, hc]
        have hn : (if g.validity.cursor then UpdateOp.copy g.n else .update (encodeCursors cur g.ours g.n) : UpdateOp T S).count = g.n := by
          split
          · rfl
          · simp [UpdateOp.count, encodeCursors]
            omega
        refine ⟨b', copyOps cur g ln ++ ops', by rw [e1]; simp, e2, ?_, ?_, ?_⟩
        · rw [e3, addSpan_lines, List.append_assoc, mapIdx_span newEntry _ _ _ _ _ (r := spanLines g.n o g.validity) (by simp)]
          intro i hi
          rw [spanLines_get hi, newEntry, if_neg hd, hasText_entry, if_pos ht, he, he]
          rfl
        · unfold copyOps
          split
          · simp only [List.cons_append, List.nil_append]
            rw [applyUpdate, show ln + (g.theirs - ln) = g.theirs by omega]
            exact hop
          · simp only [List.nil_append, List.cons_append]
            rw [show ln = g.theirs by omega]
            exact hop
        · intro op hop
          rcases List.mem_append.1 hop with hop | hop
          · unfold copyOps at hop
            rcases List.mem_append.1 hop with hop | hop
            · split at hop
              · rw [List.mem_singleton.1 hop]
                assumption
              · simp at hop
            · rw [List.mem_singleton.1 hop, hn]
              exact hpos
          · exact e5 op hop
      · rw [if_neg ht]
        by_cases hp : g.tactic = .preserve
        · rw [if_pos hp]
          obtain ⟨b', ops', e1, e2, e3, e4, e5⟩ := updateLoop_spec segs (o + g.n) (addSpan b g.n 0 .invalid) (ops ++ [.invalidate g.n]) ln h1' h2.drop h3'
            (by omega) (addSpan_noEmpty hb _ _ _) h5'
          refine ⟨b', .invalidate g.n :: ops', by rw [e1]; simp, e2, ?_, ?_, ?_⟩
          · rw [e3, addSpan_lines, List.append_assoc, mapIdx_span newEntry _ _ _ _ _ (r := spanLines g.n 0 .invalid) (by simp)]
            intro i hi
            rw [spanLines_get hi, newEntry, if_neg hd, hasText_entry, if_neg ht, if_pos hp]
            simp [entry]
          · rw [applyUpdate, e4, mapIdx_span (newLine m cur client) _ _ _ _ _ (r := List.replicate g.n none) (by simp)]
            · rfl
            · intro i hi
              rw [List.getElem?_replicate, if_pos hi, newLine, if_neg hd, hasText_entry, if_neg ht, if_pos hp]
          · intro op hop
            rcases List.mem_cons.1 hop with rfl | hop
            · exact hpos
            · exact e5 op hop
        · have hl : (encodeLines cur o g.n).length = g.n := by
            simp [encodeLines]
            omega
          rw [if_neg hp, if_neg (by omega)]
          obtain ⟨b', ops', e1, e2, e3, e4, e5⟩ := updateLoop_spec segs (o + g.n) (addSpan b g.n o .all) (ops ++ [.insert (encodeLines cur o g.n)]) ln h1' h2.drop h3'
            (by omega) (addSpan_noEmpty hb _ _ _) h5'
          refine ⟨b', .insert (encodeLines cur o g.n) :: ops', by rw [e1]; simp, e2, ?_, ?_, ?_⟩
          · rw [e3, addSpan_lines, List.append_assoc, mapIdx_span newEntry _ _ _ _ _ (r := spanLines g.n o .all) (by simp)]
            intro i hi
            rw [spanLines_get hi, newEntry, if_neg hd, hasText_entry, if_neg ht, if_neg hp]
            rfl
          · rw [applyUpdate, e4, mapIdx_span (newLine m cur client) _ _ _ _ _
              (r := (encodeLines cur o g.n).map (fun l => some ⟨l.1, l.2.1, l.2.2.getD []⟩)) (by simp [hl])]
            · rfl
            · intro i hi
              rw [newLine, if_neg hd, hasText_entry, if_neg ht, if_neg hp]
              rw [encodeLines, List.map_map, List.getElem?_map, List.getElem?_take, if_pos hi, List.getElem?_drop, List.getElem?_eq_getElem (by omega)]
              simp [encodeCursor_getD]
          · intro op hop
            rcases List.mem_cons.1 hop with rfl | hop
            · show 0 < (encodeLines cur o g.n).length
              omega
            · exact e5 op hop

end

end Xi
