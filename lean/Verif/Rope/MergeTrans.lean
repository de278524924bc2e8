import Verif.Rope.MergeCode

/-!
# `compute_transforms` and the inner loop of `rebase` on a labelled document
-/

namespace Xi

variable {α : Type}

open Chr

theorem insIn_append (g h : List RevId) (c : Chr α) : insIn (g ++ h) c = (insIn g c || insIn h c) := by
  simp [insIn]

theorem present_insIn (S g : List RevId) (c : Chr α) : c.present (S ++ g) = (c.present S || insIn g c) :=
  present_append_iff S g c

theorem insMark_eq_mk (b : RevId) : (insMark b : Chr α → Nat) = Comb.mk (insertedBy b) := rfl

/-- A group of edits with the same priority, with the additions they make. -/
structure Grp where
  prio : FullPriority
  sub : Subset
  ids : List RevId

def Grp.strip (t : Grp) : FullPriority × Subset := (t.prio, t.sub)

def flat (L : List Grp) : List RevId := L.flatMap Grp.ids

@[simp] theorem flat_nil : flat [] = [] := rfl
@[simp] theorem flat_cons (t L) : flat (t :: L) = t.ids ++ flat L := rfl
@[simp] theorem flat_append (L M) : flat (L ++ M) = flat L ++ flat M := by simp [flat]

/-- The groups, one after the other on top of the edits `S`. -/
def Trans (Z : List (Chr α)) (pr : RevId → Nat) (S : List RevId) (L : List Grp) : Prop :=
  ∀ L1 t L2, L = L1 ++ t :: L2 →
    t.sub.Is ((unionAt Z (S ++ flat L1 ++ t.ids)).map (Comb.mk (insIn t.ids))) ∧
    ∀ a ∈ t.ids, (∀ c ∈ Z, c.insertedBy a = false) ∨ fullPrio pr a = t.prio

theorem Trans.nil (Z : List (Chr α)) (pr S) : Trans Z pr S [] := by
  intro L1 t L2 h; simp at h

theorem Trans.snoc {Z : List (Chr α)} {pr S} {L : List Grp} {t : Grp} (h : Trans Z pr S L)
    (h1 : t.sub.Is ((unionAt Z (S ++ flat L ++ t.ids)).map (Comb.mk (insIn t.ids))))
    (h2 : ∀ a ∈ t.ids, (∀ c ∈ Z, c.insertedBy a = false) ∨ fullPrio pr a = t.prio) : Trans Z pr S (L ++ [t]) := by
  intro L1 u L2 hs
  rcases List.eq_nil_or_concat L2 with rfl | ⟨L3, v, rfl⟩
  · have := List.append_inj' hs rfl
    obtain ⟨rfl, h4⟩ := this
    simp only [List.cons.injEq, and_true] at h4
    subst h4
    exact ⟨h1, h2⟩
  · rw [List.concat_eq_append, ← List.cons_append, ← List.append_assoc] at hs
    obtain ⟨h3, _⟩ := List.append_inj' hs rfl
    exact h L1 u L3 h3

theorem Trans.init {Z : List (Chr α)} {pr S} {L : List Grp} {t : Grp} (h : Trans Z pr S (L ++ [t])) : Trans Z pr S L := by
  intro L1 u L2 hs
  exact h L1 u (L2 ++ [t]) (by simp [hs])

theorem unionAt_chars {Z : List (Chr α)} (S tail : List RevId)
    (h : ∀ a ∈ tail, ∀ c ∈ Z, c.insertedBy a = false) : unionAt Z (S ++ tail) = unionAt Z S := by
  unfold unionAt
  apply List.filter_congr
  intro c hc
  rw [present_append_iff]
  have : tail.any (fun id => c.insertedBy id) = false := by
    rw [List.any_eq_false]; intro a ha; simp [h a ha c hc]
  rw [this]; simp

theorem insIn_chars {Z : List (Chr α)} (g tail : List RevId)
    (h : ∀ a ∈ tail, ∀ c ∈ Z, c.insertedBy a = false) {c : Chr α} (hc : c ∈ Z) : insIn (g ++ tail) c = insIn g c := by
  rw [insIn_append]
  have : insIn tail c = false := by
    unfold insIn
    rw [List.any_eq_false]; intro a ha; simp [h a ha c hc]
  rw [this]; simp

/-- How the groups are kept by `compute_transforms`. -/
def encGrps (L : List Grp) : List (FullPriority × Subset) × Option Nat :=
  ((L.map Grp.strip).reverse, L.getLast?.map (fun t => t.prio.priority))

theorem encGrps_snoc (L : List Grp) (t : Grp) :
    encGrps (L ++ [t]) = (t.strip :: (L.map Grp.strip).reverse, some t.prio.priority) := by
  simp [encGrps]

theorem computeTransforms_fold {Z : List (Chr α)} {pr : RevId → Nat} {X : List RevId} {own : Nat → Nat × Nat} :
    ∀ (post : List Revision) (L : List Grp) (tail : List RevId), Trans Z pr X L →
    Hist Z (X ++ flat L ++ tail) post → (X ++ flat L ++ tail ++ ids post).Nodup →
    (∀ a ∈ tail, ∀ c ∈ Z, c.insertedBy a = false) →
    (∀ t ∈ L, t.prio.session = own t.prio.priority) →
    (∀ r ∈ post, r.revId.sessionId = own (pr r.revId) ∧ ∀ p g i d, r.edit = .edit p g i d → pr r.revId = p) →
    ∃ L' tail', post.foldlM computeTransformsStep (encGrps L) = some (encGrps L') ∧ Trans Z pr X L' ∧
      flat L' ++ tail' = flat L ++ tail ++ ids post ∧ (∀ a ∈ tail', ∀ c ∈ Z, c.insertedBy a = false) := by
  intro post
  induction post with
  | nil =>
    intro L tail hT _ _ ht _ _
    exact ⟨L, tail, rfl, hT, by simp, ht⟩
  | cons r post ih =>
    intro L tail hT hH hn ht hses hr
    obtain ⟨⟨p, g, i, d, he⟩, hok, hdel⟩ := hH [] r post rfl
    simp only [ids_nil, List.append_nil] at hok hdel
    unfold RevOk at hok
    rw [he] at hok
    simp only at hok
    obtain ⟨hrs, hrp⟩ := hr r (by simp)
    have hrp := hrp p g i d he
    have hrP : r.revId ∉ X ++ flat L ++ tail := by
      rw [List.nodup_append] at hn
      intro hm; exact hn.2.2 _ hm _ (by simp) rfl
    have hr' : ∀ r' ∈ post, r'.revId.sessionId = own (pr r'.revId) ∧ ∀ p g i d, r'.edit = .edit p g i d → pr r'.revId = p :=
      fun r' h => hr r' (by simp [h])
    rw [List.foldlM_cons]
    by_cases hem : i.isEmpty = true
    · have hstep : computeTransformsStep (encGrps L) r = some (encGrps L) := by
        unfold computeTransformsStep; rw [he]; simp [hem]
      rw [hstep]
      simp only [Option.bind_eq_bind, Option.bind_some]
      have hno : ∀ c ∈ Z, c.insertedBy r.revId = false := by
        intro c hc
        rw [hok.1.isEmpty] at hem
        by_cases hi : c.insertedBy r.revId = true
        · have hm : c ∈ unionAt Z (X ++ flat L ++ tail ++ [r.revId]) := by
            refine List.mem_filter.2 ⟨hc, ?_⟩
            rw [present_snoc_iff, hi]; simp
          have := hem _ (List.mem_map_of_mem hm)
          rw [insMark_of, hi] at this
          simp at this
        · simpa using hi
      obtain ⟨L', tail', a1, a2, a3, a4⟩ := ih L (tail ++ [r.revId]) hT (by simpa using hH.tail) (by simpa using hn)
        (by
          intro a ha
          simp only [List.mem_append, List.mem_singleton] at ha
          rcases ha with ha | rfl
          · exact ht a ha
          · exact hno) hses hr'
      exact ⟨L', tail', a1, a2, by simp [a3], a4⟩
    · -- a new group
      have hnew : computeTransformsStep (encGrps L) r =
          some (encGrps (L ++ [⟨⟨p, own p⟩, i, tail ++ [r.revId]⟩])) →
          ∃ L' tail', (do
            let s' ← computeTransformsStep (encGrps L) r
            post.foldlM computeTransformsStep s') = some (encGrps L') ∧ Trans Z pr X L' ∧
          flat L' ++ tail' = flat L ++ tail ++ ids (r :: post) ∧ (∀ a ∈ tail', ∀ c ∈ Z, c.insertedBy a = false) := by
        intro hstep
        rw [hstep]
        simp only [Option.bind_eq_bind, Option.bind_some]
        obtain ⟨L', tail', a1, a2, a3, a4⟩ := ih (L ++ [⟨⟨p, own p⟩, i, tail ++ [r.revId]⟩]) [] (by
            refine hT.snoc ?_ ?_
            · simp only
              rw [← List.append_assoc]
              have e : (unionAt Z (X ++ flat L ++ tail ++ [r.revId])).map (insMark r.revId) =
                  (unionAt Z (X ++ flat L ++ tail ++ [r.revId])).map (Comb.mk (insIn (tail ++ [r.revId]))) := by
                apply List.map_congr_left
                intro c hc
                have hc := RevsOk.mem_of_unionAt hc
                have : insIn tail c = false := by
                  unfold insIn; rw [List.any_eq_false]; intro a ha; simp [ht a ha c hc]
                rw [insMark_of, Comb.mk, insIn_append, this]
                simp [insIn]
              rw [← e]; exact hok.1
            · intro a ha
              simp only [List.mem_append, List.mem_singleton] at ha
              rcases ha with ha | rfl
              · exact Or.inl (ht a ha)
              · right; simp [fullPrio, hrp, hrs])
          (by simpa using hH.tail) (by simpa using hn) (by simp)
          (by
            intro t ht
            simp only [List.mem_append, List.mem_singleton] at ht
            rcases ht with ht | rfl
            · exact hses t ht
            · rfl) hr'
        exact ⟨L', tail', a1, a2, by simpa using a3, a4⟩
      rcases List.eq_nil_or_concat L with rfl | ⟨L0, t, rfl⟩
      · apply hnew
        unfold computeTransformsStep; rw [he]; simp [hem, encGrps, Grp.strip, hrs, hrp]
      · rw [List.concat_eq_append] at *
        by_cases hpp : p = t.prio.priority
        · -- the last group grows
          have hts := hses t (by simp)
          obtain ⟨ht1, ht2⟩ := hT L0 t [] (by simp)
          have hlen : ((unionAt Z (X ++ flat L0 ++ t.ids)).map (Comb.mk (insIn t.ids))).length =
              zeros ((unionAt Z (X ++ flat (L0 ++ [t]) ++ tail ++ [r.revId])).map (insMark r.revId)) := by
            rw [zeros_map, RevsOk.unionAt_snoc hrP, unionAt_chars _ _ ht]
            simp
          obtain ⟨s', b1, b2⟩ := ht1.transUnion hok.1 hlen
          have hstep : computeTransformsStep (encGrps (L0 ++ [t])) r =
              some (encGrps (L0 ++ [⟨t.prio, s', t.ids ++ tail ++ [r.revId]⟩])) := by
            unfold computeTransformsStep; rw [he]
            simp [hem, encGrps_snoc, hpp, Grp.strip, b1]
          rw [hstep]
          simp only [Option.bind_eq_bind, Option.bind_some]
          obtain ⟨L', tail', a1, a2, a3, a4⟩ := ih (L0 ++ [⟨t.prio, s', t.ids ++ tail ++ [r.revId]⟩]) [] (by
              refine hT.init.snoc ?_ ?_
              · simp only
                rw [show (unionAt Z (X ++ flat L0 ++ t.ids)) = (unionAt Z (X ++ flat (L0 ++ [t]) ++ tail)) by
                  rw [unionAt_chars _ _ ht]; simp, ← RevsOk.unionAt_snoc hrP, unionMask_map] at b2
                have e : (unionAt Z (X ++ flat (L0 ++ [t]) ++ tail ++ [r.revId])).map
                      (fun c => if c.insMark r.revId = 0 then Comb.mk (insIn t.ids) c else c.insMark r.revId) =
                    (unionAt Z (X ++ flat L0 ++ (t.ids ++ tail ++ [r.revId]))).map
                      (Comb.mk (insIn (t.ids ++ tail ++ [r.revId]))) := by
                  rw [show X ++ flat L0 ++ (t.ids ++ tail ++ [r.revId]) = X ++ flat (L0 ++ [t]) ++ tail ++ [r.revId] by
                    simp]
                  apply List.map_congr_left
                  intro c hc
                  have hc := RevsOk.mem_of_unionAt hc
                  rw [insMark_of, Comb.mk, Comb.mk, insIn_append, insIn_chars _ _ ht hc]
                  by_cases hi : c.insertedBy r.revId = true <;> simp [hi, insIn]
                rw [e] at b2
                exact b2
              · intro a ha
                simp only [List.mem_append, List.mem_singleton] at ha
                rcases ha with (ha | ha) | rfl
                · exact ht2 a ha
                · exact Or.inl (ht a ha)
                · right
                  rw [fullPrio, hrs, hrp, hpp, ← hts])
            (by simpa using hH.tail) (by simpa using hn) (by simp)
            (by
              intro u hu
              simp only [List.mem_append, List.mem_singleton] at hu
              rcases hu with hu | rfl
              · exact hses u (by simp [hu])
              · exact hts) hr'
          exact ⟨L', tail', a1, a2, by simpa using a3, a4⟩
        · apply hnew
          unfold computeTransformsStep; rw [he]
          have : ¬ some p = (encGrps (L0 ++ [t])).2 := by rw [encGrps_snoc]; simp [hpp]
          simp only [hem, this]
          simp [encGrps, Grp.strip, hrs, hrp]

theorem computeTransforms_spec {Z : List (Chr α)} {pr : RevId → Nat} {X : List RevId} {own : Nat → Nat × Nat}
    {revs : List Revision} (h : Hist Z X revs) (hn : (X ++ ids revs).Nodup)
    (hr : ∀ r ∈ revs, r.revId.sessionId = own (pr r.revId) ∧ ∀ p g i d, r.edit = .edit p g i d → pr r.revId = p) :
    ∃ L tail, computeTransforms revs = some (L.map Grp.strip) ∧ Trans Z pr X L ∧
      flat L ++ tail = ids revs ∧ (∀ a ∈ tail, ∀ c ∈ Z, c.insertedBy a = false) := by
  obtain ⟨L, tail, a1, a2, a3, a4⟩ := computeTransforms_fold (own := own) revs [] [] (Trans.nil Z pr X) (by simpa using h)
    (by simpa using hn) (by simp) (by simp) hr
  refine ⟨L, tail, ?_, a2, by simpa using a3, a4⟩
  unfold computeTransforms
  rw [show (([], none) : List (FullPriority × Subset) × Option Nat) = encGrps [] from rfl, a1]
  simp [encGrps]

/-! ### The inner loop of `rebase` -/

theorem rebaseInner_fold {Z : List (Chr α)} {pr : RevId → Nat} {X A B B1 B2 tail : List RevId} {b : RevId}
    (hc : Cells pr Z X A B) (hn : (X ++ A ++ B).Nodup) (hB : B = B1 ++ b :: B2)
    (hdel : ∀ c ∈ Z, c.deletedBy b = true → c.present (X ++ B1) = true) {L : List Grp}
    (hA : A = flat L ++ tail) (hT : Trans Z pr (X ++ B1) L) :
    ∀ (L2 L1 L1' : List Grp) (st : RebaseInner α), L = L1 ++ L2 →
    st.inserts.Pos →
    st.inserts.Denotes (unionAt Z (X ++ B1 ++ flat L1)).length
      ((unionAt Z (X ++ B1 ++ flat L1 ++ [b])).map (insMark b))
      (((unionAt Z (X ++ B1 ++ flat L1 ++ [b])).filter (insertedBy b)).map val) →
    st.deletes.Is ((unionAt Z (X ++ B1 ++ flat L1 ++ [b])).map (delMark b)) →
    Trans Z pr (X ++ (B1 ++ [b])) L1' → flat L1' = flat L1 →
    st.next = L1'.map Grp.strip →
    ∃ st' L', (L2.map Grp.strip).foldlM (rebaseInner (fullPrio pr b)) st = some st' ∧
      st'.inserts.Pos ∧
      st'.inserts.Denotes (unionAt Z (X ++ B1 ++ flat L)).length
        ((unionAt Z (X ++ B1 ++ flat L ++ [b])).map (insMark b))
        (((unionAt Z (X ++ B1 ++ flat L ++ [b])).filter (insertedBy b)).map val) ∧
      st'.deletes.Is ((unionAt Z (X ++ B1 ++ flat L ++ [b])).map (delMark b)) ∧
      Trans Z pr (X ++ (B1 ++ [b])) L' ∧ flat L' = flat L ∧
      st'.next = L'.map Grp.strip := by
  intro L2
  induction L2 with
  | nil =>
    intro L1 L1' st hL h1 h2 h3 h4 h5 h6
    simp only [List.append_nil] at hL
    subst hL
    exact ⟨st, L1', rfl, h1, h2, h3, h4, h5, h6⟩
  | cons t L2 ih =>
    intro L1 L1' st hL h1 h2 h3 h4 h5 h6
    obtain ⟨ht1, ht2⟩ := hT L1 t L2 hL
    have hA' : A = flat L1 ++ t.ids ++ (flat L2 ++ tail) := by rw [hA, hL]; simp
    have hcomb := hc.group hn hB hA' ht2
    have s1 : ∀ x, x ∈ X ++ flat L1 ++ B1 ++ t.ids ↔ x ∈ X ++ B1 ++ flat L1 ++ t.ids := by
      intro x; simp only [List.mem_append]; grind
    have s2 : ∀ x, x ∈ X ++ flat L1 ++ B1 ++ [b] ↔ x ∈ X ++ B1 ++ flat L1 ++ [b] := by
      intro x; simp only [List.mem_append]; grind
    have s3 : ∀ x, x ∈ X ++ flat L1 ++ B1 ++ [b] ++ t.ids ↔ x ∈ X ++ B1 ++ flat L1 ++ t.ids ++ [b] := by
      intro x; simp only [List.mem_append]; grind
    rw [unionAt_congr s1, unionAt_congr s2, unionAt_congr s3] at hcomb
    have hbg : ∀ x ∈ t.ids, x ∉ X ++ B1 ++ flat L1 ++ [b] := by
      intro x hx
      rw [hA', hB] at hn
      simp only [List.nodup_append, List.mem_append, List.mem_cons, List.nodup_cons] at hn ⊢
      grind
    have hbS : b ∉ X ++ B1 ++ flat L1 ++ t.ids := by
      rw [hA', hB] at hn
      simp only [List.nodup_append, List.mem_append, List.mem_cons, List.nodup_cons] at hn ⊢
      grind
    have hbS0 : b ∉ X ++ B1 ++ flat L1 := fun h => hbS (by simp only [List.mem_append] at h ⊢; grind)
    have hz : (unionAt Z (X ++ B1 ++ flat L1)).length = zeros t.sub.counts := by
      rw [ht1.2, zeros_map]
      congr 1
      have : ∀ x ∈ t.ids, x ∉ X ++ B1 ++ flat L1 := fun x hx hm => hbg x hx (by simp only [List.mem_append] at hm ⊢; grind)
      rw [← unionAt_diff this]
      apply List.filter_congr
      intro c _
      simp only [Comb.mk]
      by_cases hi : insIn t.ids c <;> simp [hi]
    rw [hz] at h2
    obtain ⟨ins', a1, a2, a3⟩ := InsertDelta.transformExpand_spec t.sub ht1.1 h2 h1 ((fullPrio pr b).ge t.prio)
    rw [ht1.2, insMark_eq_mk, hcomb.rebase] at a2
    simp only [List.length_map] at a2
    have hins : ((unionAt Z (X ++ B1 ++ flat L1 ++ [b])).filter (insertedBy b)).map val =
        ((unionAt Z (X ++ B1 ++ flat L1 ++ t.ids ++ [b])).filter (insertedBy b)).map val := by
      congr 1
      unfold unionAt
      rw [List.filter_filter, List.filter_filter]
      apply List.filter_congr
      intro c _
      rw [present_snoc_iff, present_snoc_iff]
      by_cases hi : c.insertedBy b = true <;> simp [hi]
    rw [hins] at a2
    obtain ⟨i, i1, i2n, i2c⟩ := a2.insertedSubset a3
    have i2 : i.Is ((unionAt Z (X ++ B1 ++ flat L1 ++ t.ids ++ [b])).map (Comb.mk (insertedBy b))) := ⟨i2n, i2c⟩
    have hzi : zeros ((unionAt Z (X ++ B1 ++ flat L1 ++ t.ids ++ [b])).map (Comb.mk (insertedBy b))) =
        (unionAt Z (X ++ B1 ++ flat L1 ++ t.ids)).length := by
      rw [zeros_map, ← insMark_eq_mk, RevsOk.unionAt_snoc hbS]
    obtain ⟨nt, n1, n2⟩ := ht1.expand i2 (by rw [hzi]; simp)
    rw [hcomb.expand] at n2
    have hfil : (unionAt Z (X ++ B1 ++ flat L1 ++ t.ids ++ [b])).filter (fun c => Comb.mk (insIn t.ids) c == 0) =
        unionAt Z (X ++ B1 ++ flat L1 ++ [b]) := by
      rw [unionAt_congr (T := X ++ B1 ++ flat L1 ++ [b] ++ t.ids) (by intro x; simp only [List.mem_append]; grind),
        ← unionAt_diff hbg]
      apply List.filter_congr
      intro c _
      simp only [Comb.mk]
      by_cases hi : insIn t.ids c <;> simp [hi]
    obtain ⟨d', d1, d2⟩ := h3.expand n2 (by rw [zeros_map, hfil]; simp)
    rw [← hfil, expandMask_map] at d2
    have hd2 : (unionAt Z (X ++ B1 ++ flat L1 ++ t.ids ++ [b])).map
        (fun c => if Comb.mk (insIn t.ids) c = 0 then c.delMark b else 0) =
        (unionAt Z (X ++ B1 ++ flat L1 ++ t.ids ++ [b])).map (delMark b) := by
      apply List.map_congr_left
      intro c hc
      have hc := RevsOk.mem_of_unionAt hc
      split
      · rfl
      · rename_i hne
        unfold delMark
        rw [if_neg]
        intro hd
        have hp := hdel c hc hd
        have hii : insIn t.ids c = true := by
          simp only [Comb.mk] at hne
          simpa using hne
        have := insIn_present (S := X ++ B1) (fun x hx hm => hbg x hx (by simp only [List.mem_append] at hm ⊢; grind)) hii
        rw [this] at hp
        cases hp
    rw [hd2] at d2
    obtain ⟨st', L', r1, r2, r3, r4, r5, r6, r7⟩ := ih (L1 ++ [t]) (L1' ++ [⟨t.prio, nt, t.ids⟩])
      ⟨ins', d', st.next ++ [(t.prio, nt)]⟩ (by simp [hL]) a3
      (by simpa [insMark_eq_mk] using a2) (by simpa using d2)
      (by
        refine h4.snoc ?_ ht2
        simp only
        rw [h5, unionAt_congr (T := X ++ B1 ++ flat L1 ++ t.ids ++ [b]) (by intro x; simp only [List.mem_append]; grind)]
        exact n2)
      (by simp [h5]) (by simp [h6, Grp.strip])
    refine ⟨st', L', ?_, r2, r3, r4, r5, r6, r7⟩
    rw [List.map_cons, List.foldlM_cons]
    have : rebaseInner (fullPrio pr b) st t.strip = some ⟨ins', d', st.next ++ [(t.prio, nt)]⟩ := by
      simp [rebaseInner, Grp.strip, a1, i1, n1, d1]
    rw [this]
    exact r1

end Xi
