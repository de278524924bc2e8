import Verif.Rope.MergeSpec

/-!
# A new edit of one replica, placed in the shared document
-/

namespace Xi

variable {α : Type}

open Chr

/-- Recording the deletions of a new edit in the shared document. -/
theorem lift_dels {S : List RevId} {lab : Lab} : ∀ (Z : List (Chr α)) (Dm : List Nat),
    Dm.length = (unionAt Z S).length → (∀ c ∈ Z, ∀ d ∈ c.delBy, d.id ≠ lab.id) →
    ∃ Z1, Z1.map (undelete lab.id) = Z ∧
      (unionAt Z1 S).map (Chr.only (S ++ [lab.id])) = List.zipWith (markDel lab) (view S Z) Dm ∧
      ∀ c ∈ Z1, ∀ d ∈ c.delBy, d.id = lab.id → d = lab ∧ c.present S = true := by
  intro Z
  induction Z with
  | nil => intro Dm _ _; exact ⟨[], rfl, by simp [unionAt, view], by simp⟩
  | cons z Z ih =>
    intro Dm hl hno
    have hz := hno z (by simp)
    have hundel : undelete lab.id z = z := by
      unfold undelete
      have : z.delBy.filter (fun d => d.id != lab.id) = z.delBy := by
        rw [List.filter_eq_self]; intro d hd; simpa using hz d hd
      rw [this]
    by_cases hp : z.present S = true
    · unfold unionAt at hl
      rw [List.filter_cons, if_pos hp] at hl
      cases Dm with
      | nil => simp at hl
      | cons m Dm =>
        obtain ⟨Z1, h1, h2, h3⟩ := ih Dm (by simpa [unionAt] using hl) (fun c hc => hno c (by simp [hc]))
        refine ⟨markDel lab z m :: Z1, ?_, ?_, ?_⟩
        · rw [List.map_cons, h1]
          congr 1
          unfold markDel
          split
          · exact hundel
          · rw [← hundel]; simp [undelete]
        · have hp' : (markDel lab z m).present S = true := by unfold markDel; split <;> exact hp
          rw [unionAt, List.filter_cons, if_pos hp', view, unionAt, List.filter_cons, if_pos hp]
          simp only [List.map_cons, List.zipWith_cons_cons]
          have e : Chr.only (S ++ [lab.id]) (markDel lab z m) = markDel lab (Chr.only S z) m := by
            have hf : z.delBy.filter (fun d => (S ++ [lab.id]).contains d.id) = z.delBy.filter (fun d => S.contains d.id) := by
              apply List.filter_congr
              intro d hd
              have := hz d hd
              rw [Bool.eq_iff_iff]; simp [this]
            unfold markDel
            split
            · simp only [Chr.only, hf]
            · simp only [Chr.only, List.filter_cons]
              rw [if_pos (by simp), hf]
          rw [e]
          congr 1
        · intro c hc d hd hid
          simp only [List.mem_cons] at hc
          rcases hc with rfl | hc
          · unfold markDel at hd ⊢
            split at hd
            · exact absurd hid (hz d hd)
            · rename_i hm
              rw [if_neg hm]
              simp only [List.mem_cons] at hd
              rcases hd with rfl | hd
              · exact ⟨rfl, hp⟩
              · exact absurd hid (hz d hd)
          · exact h3 c hc d hd hid
    · unfold unionAt at hl
      rw [List.filter_cons, if_neg hp] at hl
      obtain ⟨Z1, h1, h2, h3⟩ := ih Dm hl (fun c hc => hno c (by simp [hc]))
      refine ⟨z :: Z1, by rw [List.map_cons, h1, hundel], ?_, ?_⟩
      · rw [unionAt, List.filter_cons, if_neg hp, view, unionAt, List.filter_cons, if_neg hp]
        exact h2
      · intro c hc d hd hid
        simp only [List.mem_cons] at hc
        rcases hc with rfl | hc
        · exact absurd hid (hz d hd)
        · exact h3 c hc d hd hid

theorem unionAt_filter_not {W : List (Chr α)} {T : List RevId} {b : RevId} (hb : b ∉ T) :
    unionAt (W.filter (fun c => !c.insertedBy b)) T = unionAt W T := by
  unfold unionAt
  rw [List.filter_filter]
  apply List.filter_congr
  intro c _
  by_cases hp : c.present T = true
  · have := insMark_present hb hp
    rw [insMark_of] at this
    have : c.insertedBy b = false := by simpa using this
    simp [hp, this]
  · simp [hp]

/-- Placing the new characters of `n` among those of `B`. -/
theorem column {Z1 : List (Chr α)} {S : List RevId} {n : RevId} (fl : RevId → Bool) {W0 : List (Chr α)}
    (hW : W0.filter (fun c => !c.insertedBy n) = unionAt Z1 S) (hnS : n ∉ S)
    (hZ : ∀ c ∈ Z1, c.insertedBy n = false) : ∀ (k : Nat) (B : List RevId), B.length = k →
    (S ++ [n] ++ B).Nodup →
    ∃ W, W.filter (fun c => !c.insertedBy n) = unionAt Z1 (S ++ B) ∧ unionAt W (S ++ [n]) = W0 ∧
      (∀ c ∈ W, c.present (S ++ [n] ++ B) = true) ∧
      (∀ c ∈ W, c.insertedBy n = true → c ∈ W0) ∧
      ∀ B1 b B2, B = B1 ++ b :: B2 → Ord (insertedBy n) (insertedBy b) (fl b) (unionAt W (S ++ B1 ++ [n, b])) := by
  intro k
  induction k with
  | zero =>
    intro B hk _
    have : B = [] := by simpa using hk
    subst this
    have hall : ∀ c ∈ W0, c.present (S ++ [n]) = true := by
      intro c hc
      rw [present_snoc_iff]
      by_cases hi : c.insertedBy n = true
      · simp [hi]
      · have : c ∈ W0.filter (fun c => !c.insertedBy n) := List.mem_filter.2 ⟨hc, by simpa using hi⟩
        rw [hW] at this
        simp [(List.mem_filter.1 this).2]
    refine ⟨W0, by simpa using hW, ?_, by simpa using hall, fun c hc _ => hc, by intro B1 b B2 h; simp at h⟩
    unfold unionAt
    rw [List.filter_eq_self]
    exact hall
  | succ k ih =>
    intro B hk hn
    rcases List.eq_nil_or_concat B with rfl | ⟨B', b, rfl⟩
    · simp at hk
    · rw [List.concat_eq_append] at *
      obtain ⟨W, h1, h2, h3, h4, h5⟩ := ih B' (by simpa using hk) (by
        rw [← List.append_assoc, List.nodup_append] at hn; exact hn.1)
      have hbS : b ∉ S ++ [n] ++ B' := by
        rw [← List.append_assoc, List.nodup_append] at hn
        intro hm; exact hn.2.2 b hm b (by simp) rfl
      have hbS' : b ∉ S ++ B' := by
        intro hm; apply hbS; simp only [List.mem_append] at hm ⊢; grind
      have hne : n ≠ b := by rintro rfl; exact hbS (by simp)
      have hWb : ∀ c ∈ W, c.insertedBy b = false := by
        intro c hc
        have := insMark_present hbS (h3 c hc)
        rw [insMark_of] at this
        simpa using this
      have hys : (unionAt Z1 (S ++ B' ++ [b])).filter (fun c => !c.insertedBy b) = unionAt Z1 (S ++ B') := by
        rw [← RevsOk.unionAt_snoc hbS']
        apply List.filter_congr
        intro c _
        rw [insMark_of]
        by_cases hi : c.insertedBy b = true <;> simp [hi]
      obtain ⟨W', hC⟩ := Comb.exists_of_filter (p := insertedBy n) (q := insertedBy b) (fl b) W
        (unionAt Z1 (S ++ B' ++ [b])) (by rw [h1, hys]) hWb (fun c hc => hZ c (RevsOk.mem_of_unionAt hc))
      have hf1 := hC.filter_left
      have hf2 := hC.filter_right
      have hall : ∀ c ∈ W', c.present (S ++ [n] ++ (B' ++ [b])) = true := by
        intro c hc
        rw [← List.append_assoc, present_snoc_iff]
        by_cases hi : c.insertedBy b = true
        · simp [hi]
        · have : c ∈ W'.filter (fun c => !c.insertedBy b) := List.mem_filter.2 ⟨hc, by simpa using hi⟩
          rw [hf1] at this
          rw [h3 c this]; rfl
      refine ⟨W', by rw [hf2]; simp, ?_, hall, ?_, ?_⟩
      · rw [← h2, ← hf1, unionAt_filter_not]
        intro hm; apply hbS; simp only [List.mem_append] at hm ⊢; grind
      · intro c hc hi
        apply h4 c _ hi
        rw [← hf1]
        exact List.mem_filter.2 ⟨hc, by simpa using insertedBy_disjoint hne c hi⟩
      · intro B1 b' B2 hs
        rcases List.eq_nil_or_concat B2 with rfl | ⟨B3, y, rfl⟩
        · obtain ⟨rfl, h7⟩ := List.append_inj' hs rfl
          simp only [List.cons.injEq, and_true] at h7
          subst h7
          have e : unionAt W' (S ++ B' ++ [n, b]) = W' := by
            unfold unionAt
            rw [List.filter_eq_self]
            intro c hc
            exact present_mono (by intro x hx; simp only [List.mem_append, List.mem_cons, List.not_mem_nil, or_false] at hx ⊢; grind)
              (hall c hc)
          rw [e]
          exact hC.ord
        · rw [List.concat_eq_append, ← List.cons_append, ← List.append_assoc] at hs
          obtain ⟨h7, h8⟩ := List.append_inj' hs rfl
          have := h5 B1 b' B3 h7
          rw [← hf1, unionAt_filter_not] at this
          · exact this
          · intro hm
            apply hbS
            rw [h7]
            simp only [List.mem_append, List.mem_cons, List.not_mem_nil, or_false] at hm ⊢
            grind

/-- Two replicas. -/
structure Peers (Z : List (Chr α)) (pr grp : RevId → Nat) (a b : Engine α) : Prop where
  zok : ZOk Z grp
  left : Peer Z pr grp a
  right : Peer Z pr grp b
  cells : Cells pr Z (inBoth a b) (onlyIn a b) (onlyIn b a)
  ses : a.session ≠ b.session
  sesL : ∀ x ∈ onlyIn a b, x.sessionId = a.session
  sesR : ∀ x ∈ onlyIn b a, x.sessionId = b.session
  known : ∀ c ∈ Z, c.present (ids a.revs ++ ids b.revs) = true ∧ ∀ d ∈ c.delBy, d.id ∈ ids a.revs ++ ids b.revs

theorem mem_inBoth_comm {a b : Engine α} (x : RevId) : x ∈ inBoth a b ↔ x ∈ inBoth b a := by
  rw [mem_inBoth, mem_inBoth]; exact And.comm

theorem Peers.swap {Z : List (Chr α)} {pr grp : RevId → Nat} {a b : Engine α} (h : Peers Z pr grp a b) :
    Peers Z pr grp b a := by
  refine ⟨h.zok, h.right, h.left, ?_, h.ses.symm, h.sesR, h.sesL, ?_⟩
  · exact (h.cells.swap (fun x hx y hy => by rw [h.sesL x hx, h.sesR y hy]; exact h.ses)).congr mem_inBoth_comm
  · intro c hc
    obtain ⟨h1, h2⟩ := h.known c hc
    refine ⟨present_mono (by intro x hx; simp only [List.mem_append] at hx ⊢; exact hx.symm) h1, ?_⟩
    intro d hd
    have := h2 d hd
    simp only [List.mem_append] at this ⊢; exact this.symm

/-- Merging. -/
theorem Peers.merge {Z : List (Chr α)} {pr grp : RevId → Nat} {a b : Engine α} (h : Peers Z pr grp a b) :
    ∃ a', a.merge b = some a' ∧ Peers Z pr grp a' b ∧ ids a'.revs = ids a.revs ++ onlyIn b a ∧
      a'.session = a.session ∧ (onlyIn b a = [] → a' = a) := by
  obtain ⟨a', m1, m2, m3, m4, _, m6⟩ := merge_spec h.zok h.left h.right h.cells (own := fun _ => a.session) h.sesL
    (fun x hx => by rw [h.sesR x hx]; exact h.ses.symm)
  have hl : onlyIn a' b = onlyIn a b := by
    unfold onlyIn
    rw [m3, List.filter_append]
    have : (onlyIn b a).filter (fun x => !(ids b.revs).contains x) = [] := by
      rw [List.filter_eq_nil_iff]
      intro x hx
      simp [(mem_onlyIn.1 hx).1]
    rw [this, List.append_nil]
  have hr : onlyIn b a' = [] := by
    unfold onlyIn
    rw [List.filter_eq_nil_iff, m3]
    intro x hx
    by_cases hxa : x ∈ ids a.revs
    · simp [hxa]
    · simp [hxa, mem_onlyIn, hx]
  refine ⟨a', m1, ⟨h.zok, m2, h.right, ?_, by rw [m4]; exact h.ses, ?_, ?_, ?_⟩, m3, m4, m6⟩
  · intro A1 x A2 B1 y B2 hA hB
    rw [hr] at hB
    simp at hB
  · rw [hl, m4]; exact h.sesL
  · rw [hr]; simp
  · intro c hc
    obtain ⟨h1, h2⟩ := h.known c hc
    have hsub : ∀ x ∈ ids a.revs ++ ids b.revs, x ∈ ids a'.revs ++ ids b.revs := by
      intro x hx; rw [m3]; simp only [List.mem_append] at hx ⊢; grind
    exact ⟨present_mono hsub h1, fun d hd => hsub _ (h2 d hd)⟩

theorem undelete_of_no {id : RevId} {c : Chr α} (h : ∀ d ∈ c.delBy, d.id ≠ id) : c.undelete id = c := by
  unfold undelete
  have : c.delBy.filter (fun d => d.id != id) = c.delBy := by
    rw [List.filter_eq_self]; intro d hd; simpa using h d hd
  rw [this]

theorem only_undelete {T : List RevId} {id : RevId} (h : id ∉ T) (c : Chr α) : (c.undelete id).only T = c.only T := by
  unfold Chr.only undelete
  congr 1
  simp only
  rw [List.filter_filter]
  apply List.filter_congr
  intro d _
  by_cases h1 : d.id = id
  · simp [h1, h]
  · rw [Bool.eq_iff_iff]; simp [h1]

theorem view_of_ext {Z Z' : List (Chr α)} {n : RevId} (h : (Z'.filter (fun c => !c.insertedBy n)).map (undelete n) = Z)
    {T : List RevId} (hT : n ∉ T) : view T Z' = view T Z := by
  rw [← h]
  unfold view
  rw [show unionAt ((Z'.filter (fun c => !c.insertedBy n)).map (undelete n)) T =
    (unionAt (Z'.filter (fun c => !c.insertedBy n)) T).map (undelete n) by
      unfold unionAt; rw [List.filter_map]; rfl]
  rw [unionAt_filter_not hT, List.map_map]
  apply List.map_congr_left
  intro c _
  exact (only_undelete hT c).symm

theorem ord_of_ext {Z Z' : List (Chr α)} {n : RevId} (h : (Z'.filter (fun c => !c.insertedBy n)).map (undelete n) = Z)
    {T : List RevId} (hT : n ∉ T) {x y : RevId} {after : Bool}
    (ho : Ord (insertedBy x) (insertedBy y) after (unionAt Z T)) :
    Ord (insertedBy x) (insertedBy y) after (unionAt Z' T) := by
  rw [← h, show unionAt ((Z'.filter (fun c => !c.insertedBy n)).map (undelete n)) T =
    (unionAt (Z'.filter (fun c => !c.insertedBy n)) T).map (undelete n) by
      unfold unionAt; rw [List.filter_map]; rfl, unionAt_filter_not hT, ord_map] at ho
  exact ho

/-- A function that has the value `v` at `n`. -/
def setRev (f : RevId → Nat) (n : RevId) (v : Nat) : RevId → Nat := fun x => if x = n then v else f x

/-- A new edit `n` of `a` is placed in the document of all edits; `B` are those that `a` does not know. -/
theorem Peer.place {Z : List (Chr α)} {pr grp : RevId → Nat} {a a' : Engine α} (hz : ZOk Z grp) (h : Peer Z pr grp a)
    {n : RevId} {B : List RevId} {J Dm : List Nat} {s : List α} {r : Revision} {p g : Nat} {i d : Subset} {m : Nat}
    (hnA : n ∉ ids a.revs) (hnd : (ids a.revs ++ [n] ++ B).Nodup)
    (hk : ∀ c ∈ Z, c.present (ids a.revs ++ B) = true ∧ ∀ d ∈ c.delBy, d.id ∈ ids a.revs ++ B)
    (hm : EditMasks (view (ids a.revs) Z) J Dm s) (hD : Den a' (addEdit ⟨n, g⟩ J Dm s (view (ids a.revs) Z)))
    (hu : a'.undoneGroups = a.undoneGroups) (hr : a'.revs = a.revs ++ [r]) (hr' : r = ⟨n, m, .edit p g i d⟩) :
    ∃ Z', (Z'.filter (fun c => !c.insertedBy n)).map (undelete n) = Z ∧ ZOk Z' (setRev grp n g) ∧
      Peer Z' (setRev pr n p) (setRev grp n g) a' ∧
      (∀ b, Peer Z pr grp b → n ∉ ids b.revs → Peer Z' (setRev pr n p) (setRev grp n g) b) ∧
      (∀ c ∈ Z', c.present (ids a.revs ++ B ++ [n]) = true ∧ ∀ d ∈ c.delBy, d.id ∈ ids a.revs ++ B ++ [n]) ∧
      ∀ B1 b B2, B = B1 ++ b :: B2 → Ord (insertedBy n) (insertedBy b) ((fullPrio (setRev pr n p) b).ge (fullPrio (setRev pr n p) n))
        (unionAt Z' (ids a.revs ++ B1 ++ [n, b])) := by
  have hnB : n ∉ B := by
    rw [List.nodup_append] at hnd
    intro hm'
    exact hnd.2.2 n (by simp) n hm' rfl
  have hrid : r.revId = n := by rw [hr']
  have hids : ids a'.revs = ids a.revs ++ [n] := by rw [hr, ids_append]; simp [hrid]
  obtain ⟨pr', epr⟩ : ∃ f, f = setRev pr n p := ⟨_, rfl⟩
  obtain ⟨grp', egrp⟩ : ∃ f, f = setRev grp n g := ⟨_, rfl⟩
  have prn : pr' n = p := by simp [epr, setRev]
  have prx : ∀ x, x ≠ n → pr' x = pr x := by intro x hx; simp [epr, setRev, hx]
  have grn : grp' n = g := by simp [egrp, setRev]
  have grx : ∀ x, x ≠ n → grp' x = grp x := by intro x hx; simp [egrp, setRev, hx]
  rw [← epr, ← egrp]
  -- no character mentions the new edit
  have hnoI : ∀ c ∈ Z, c.insertedBy n = false := by
    intro c hc
    have h1 := (hk c hc).1
    have := insMark_present (r := n) (by simp only [List.mem_append, not_or]; exact ⟨hnA, hnB⟩) h1
    rw [insMark_of] at this
    simpa using this
  have hnoD : ∀ c ∈ Z, ∀ d ∈ c.delBy, d.id ≠ n := by
    intro c hc d hd he
    have := (hk c hc).2 d hd
    rw [he] at this
    simp only [List.mem_append] at this
    exact this.elim hnA hnB
  -- the deletions
  obtain ⟨Z1, z1, z2, z3⟩ := lift_dels (S := ids a.revs) (lab := ⟨n, g⟩) Z Dm
    (by rw [hm.lenD]; simp [view]) hnoD
  simp only at z1 z2 z3
  have hmemZ : ∀ c ∈ Z1, undelete n c ∈ Z := by
    intro c hc; rw [← z1]; exact List.mem_map_of_mem hc
  have hZ1I : ∀ c ∈ Z1, c.insertedBy n = false := fun c hc => hnoI (undelete n c) (hmemZ c hc)
  -- the new characters
  let V0 := weave J (unionAt Z1 (ids a.revs)) (s.map (fun v => (⟨v, some ⟨n, g⟩, []⟩ : Chr α)))
  have hlen1 : (unionAt Z1 (ids a.revs)).length = zeros J := by
    have := congrArg List.length z2
    rw [List.length_map, List.length_zipWith, hm.lenD] at this
    rw [this, hm.zerosJ]; simp
  have hlen2 : (s.map (fun v => (⟨v, some ⟨n, g⟩, []⟩ : Chr α))).length = J.length - zeros J := by
    rw [List.length_map, hm.lenS, hm.zerosJ]
  have hnew : ∀ v : α, (⟨v, some ⟨n, g⟩, []⟩ : Chr α).insMark n = 1 := fun v => insMark_new (lab := ⟨n, g⟩) v
  have hV0mask : V0.map (insMark n) = J := by
    simp only [V0]
    rw [map_weave, List.map_map]
    have e1 : (unionAt Z1 (ids a.revs)).map (insMark n) = List.replicate (unionAt Z1 (ids a.revs)).length 0 := by
      rw [List.eq_replicate_iff]
      refine ⟨by simp, ?_⟩
      intro x hx
      obtain ⟨c, hc, rfl⟩ := List.mem_map.1 hx
      rw [insMark_of, hZ1I c (RevsOk.mem_of_unionAt hc)]; simp
    have e2 : s.map (insMark n ∘ fun v => (⟨v, some ⟨n, g⟩, []⟩ : Chr α)) = List.replicate s.length 1 := by
      rw [List.eq_replicate_iff]
      refine ⟨by simp, ?_⟩
      intro x hx
      obtain ⟨c, hc, rfl⟩ := List.mem_map.1 hx
      exact hnew c
    rw [e1, e2]
    exact weave_self01 J hm.J01 _ _ hlen1 (by simpa using hlen2)
  have hV0old : V0.filter (fun c => !c.insertedBy n) = unionAt Z1 (ids a.revs) := by
    have e : V0.filter (fun c => !c.insertedBy n) = V0.filter (fun c => c.insMark n == 0) := by
      apply List.filter_congr
      intro c _
      rw [insMark_of]
      by_cases hi : c.insertedBy n = true <;> simp [hi]
    rw [e, ← keep_map_self, hV0mask]
    exact keep_weave _ _ _ hlen1 hlen2
  have hV0new : ∀ c ∈ V0, c.insertedBy n = true → c.insBy = some ⟨n, g⟩ ∧ c.delBy = [] := by
    intro c hc hi
    rcases mem_weave _ _ _ hc with hc | hc
    · rw [hZ1I c (RevsOk.mem_of_unionAt hc)] at hi; cases hi
    · obtain ⟨v, _, rfl⟩ := List.mem_map.1 hc
      exact ⟨rfl, rfl⟩
  obtain ⟨Z', w1, w2, w3, w4, w5⟩ := column (fun x => (fullPrio pr' x).ge (fullPrio pr' n)) hV0old hnA hZ1I _
    (B) rfl hnd
  have hZ1all : unionAt Z1 (ids a.revs ++ B) = Z1 := by
    unfold unionAt
    rw [List.filter_eq_self]
    intro c hc
    have := (hk _ (hmemZ c hc)).1
    rw [present_undelete] at this
    exact this
  rw [hZ1all] at w1
  have hext : (Z'.filter (fun c => !c.insertedBy n)).map (undelete n) = Z := by rw [w1, z1]
  -- the characters of `Z'`
  have hcases : ∀ c ∈ Z', (c.insBy = some ⟨n, g⟩ ∧ c.delBy = []) ∨ (c ∈ Z1 ∧ c.insertedBy n = false) := by
    intro c hc
    by_cases hi : c.insertedBy n = true
    · exact Or.inl (hV0new c (w4 c hc hi) hi)
    · right
      have : c ∈ Z'.filter (fun c => !c.insertedBy n) := List.mem_filter.2 ⟨hc, by simpa using hi⟩
      rw [w1] at this
      exact ⟨this, by simpa using hi⟩
  have hdelcases : ∀ c ∈ Z', ∀ d ∈ c.delBy, c ∈ Z1 ∧ (d.id ≠ n → d ∈ (undelete n c).delBy) ∧
      (d.id = n → d = ⟨n, g⟩ ∧ c.present (ids a.revs) = true) := by
    intro c hc d hd
    rcases hcases c hc with ⟨_, h2⟩ | ⟨h1, _⟩
    · rw [h2] at hd; simp at hd
    · refine ⟨h1, ?_, z3 c h1 d hd⟩
      intro hne
      unfold undelete
      simp only [List.mem_filter]
      exact ⟨hd, by simpa using hne⟩
  have hviewA : view (ids a.revs ++ [n]) Z' = addEdit ⟨n, g⟩ J Dm s (view (ids a.revs) Z) := by
    unfold view
    rw [w2]
    simp only [V0]
    rw [map_weave, z2, List.map_map]
    rfl
  refine ⟨Z', hext, ?_, ?_, ?_, ?_, w5⟩
  · -- labels
    refine ⟨?_, ?_, ?_, ?_⟩
    · intro c hc l hl
      rcases hcases c hc with ⟨h1, _⟩ | ⟨h1, h2⟩
      · rw [h1] at hl; cases hl; exact grn.symm
      · have h3 := hz.insGrp _ (hmemZ c h1) l hl
        have : l.id ≠ n := by
          intro he
          have : c.insertedBy n = true := insertedBy_iff.2 ⟨l, hl, he⟩
          rw [h2] at this; cases this
        rw [grx _ this]; exact h3
    · intro c hc d hd
      obtain ⟨h1, h2, h3⟩ := hdelcases c hc d hd
      by_cases he : d.id = n
      · rw [(h3 he).1]; exact grn.symm
      · rw [grx _ he]
        exact hz.delGrp _ (hmemZ c h1) d (h2 he)
    · intro c hc
      -- from the view of `a'` or from `Z`
      rcases hcases c hc with ⟨_, h2⟩ | ⟨h1, _⟩
      · rw [h2]; simp
      · have hzn := hz.nodup _ (hmemZ c h1)
        -- `c` comes from a mark on `undelete n c`
        by_cases hp : c.present (ids a.revs) = true
        · have hmem : c.only (ids a.revs ++ [n]) ∈ addEdit ⟨n, g⟩ J Dm s (view (ids a.revs) Z) := by
            rw [← hviewA]
            exact List.mem_map_of_mem (List.mem_filter.2 ⟨hc, present_mono (by intro x hx; simp [hx]) hp⟩)
          have hch := hD.revsOk.chr _ hmem
          have hnd1 := hch.nodup
          -- count of `n`-labels
          have hcount : ∀ ds : List Lab, ((ds.filter (fun d => d.id != n)).map Lab.id).Nodup →
              ((ds.filter (fun d => (ids a.revs ++ [n]).contains d.id)).map Lab.id).Nodup → (ds.map Lab.id).Nodup := by
            intro ds
            induction ds with
            | nil => intros; simp
            | cons x ds ih =>
              intro g1 g2
              by_cases hx : x.id = n
              · rw [List.filter_cons, if_neg (by simp [hx])] at g1
                rw [List.filter_cons, if_pos (by simp [hx])] at g2
                simp only [List.map_cons, List.nodup_cons] at g2 ⊢
                refine ⟨?_, ih g1 g2.2⟩
                intro hm'
                apply g2.1
                obtain ⟨y, y1, y2⟩ := List.mem_map.1 hm'
                exact List.mem_map.2 ⟨y, List.mem_filter.2 ⟨y1, by rw [y2, hx]; simp⟩, y2⟩
              · rw [List.filter_cons, if_pos (by simp [hx])] at g1
                simp only [List.map_cons, List.nodup_cons] at g1 ⊢
                refine ⟨?_, ih g1.2 ?_⟩
                · intro hm'
                  apply g1.1
                  obtain ⟨y, y1, y2⟩ := List.mem_map.1 hm'
                  exact List.mem_map.2 ⟨y, List.mem_filter.2 ⟨y1, by rw [y2]; simpa using hx⟩, y2⟩
                · rw [List.filter_cons] at g2
                  split at g2
                  · simp only [List.map_cons, List.nodup_cons] at g2; exact g2.2
                  · exact g2
          exact hcount _ hzn hnd1
        · have : undelete n c = c := by
            apply undelete_of_no
            intro d hd he
            exact hp (z3 c h1 d hd he).2
          rw [this] at hzn; exact hzn
    · intro c hc d hd
      obtain ⟨h1, h2, h3⟩ := hdelcases c hc d hd
      by_cases he : d.id = n
      · rw [he]; exact hZ1I c h1
      · exact hz.irr _ (hmemZ c h1) d (h2 he)
  · -- the editing replica
    refine ⟨by rw [hids, hviewA]; exact hD, ?_, by rw [hu]; exact h.undone, ?_⟩
    · rw [hids]
      intro c hc d hd hm'
      apply present_mono (S := ids a.revs) (by intro x hx; simp [hx])
      obtain ⟨h1, h2, h3⟩ := hdelcases c hc d hd
      by_cases he : d.id = n
      · exact (h3 he).2
      · have := h.closed _ (hmemZ c h1) d (h2 he) (by
          simp only [List.mem_append, List.mem_singleton] at hm'
          exact hm'.resolve_right he)
        rwa [present_undelete] at this
    · obtain ⟨r0, rest, k1, k2, k3, k4⟩ := h.split
      refine ⟨r0, rest ++ [r], by rw [hr, k1]; rfl, k2, ?_⟩
      intro x hx
      simp only [List.mem_append, List.mem_singleton] at hx
      rcases hx with hx | rfl
      · obtain ⟨i', d', e1⟩ := k4 x hx
        have : x.revId ≠ n := by
          intro he
          apply hnA
          rw [k1, ids_cons, ← he]
          exact List.mem_cons_of_mem _ (mem_ids.2 ⟨x, hx, rfl⟩)
        exact ⟨i', d', by rw [prx _ this, grx _ this]; exact e1⟩
      · exact ⟨i, d, by rw [hr']; simp only [prn, grn]⟩
  · -- the other replicas
    intro b hb hnb
    have hv : view (ids b.revs) Z' = view (ids b.revs) Z := view_of_ext hext hnb
    refine ⟨by rw [hv]; exact hb.den, ?_, hb.undone, ?_⟩
    · intro c hc d hd hm'
      obtain ⟨h1, h2, h3⟩ := hdelcases c hc d hd
      have he : d.id ≠ n := by intro he; rw [he] at hm'; exact hnb hm'
      have := hb.closed _ (hmemZ c h1) d (h2 he) hm'
      rwa [present_undelete] at this
    · obtain ⟨r0, rest, k1, k2, k3, k4⟩ := hb.split
      refine ⟨r0, rest, k1, k2, ?_⟩
      intro x hx
      obtain ⟨i', d', e1⟩ := k4 x hx
      have : x.revId ≠ n := by
        intro he
        apply hnb
        rw [k1, ids_cons, ← he]
        exact List.mem_cons_of_mem _ (mem_ids.2 ⟨x, hx, rfl⟩)
      exact ⟨i', d', by rw [prx _ this, grx _ this]; exact e1⟩
  · intro c hc
    have hsub : ∀ x ∈ ids a.revs ++ B, x ∈ ids a.revs ++ B ++ [n] := by
      intro x hx; exact List.mem_append_left _ hx
    have hmn : n ∈ ids a.revs ++ B ++ [n] := by simp
    refine ⟨?_, ?_⟩
    · rcases hcases c hc with ⟨h1, _⟩ | ⟨h1, _⟩
      · unfold present
        rw [h1]
        simpa using hmn
      · have := (hk _ (hmemZ c h1)).1
        rw [present_undelete] at this
        exact present_mono hsub this
    · intro d hd
      obtain ⟨h1, h2, h3⟩ := hdelcases c hc d hd
      by_cases he : d.id = n
      · rw [he]; exact hmn
      · exact hsub _ ((hk _ (hmemZ c h1)).2 d (h2 he))

/-- Editing. -/
theorem Peers.edit {Z : List (Chr α)} {pr grp : RevId → Nat} {a b : Engine α} (h : Peers Z pr grp a b)
    {a' : Engine α} {J Dm : List Nat} {s : List α} {r : Revision} {p g : Nat} {i d : Subset} {m : Nat}
    (hm : EditMasks (view (ids a.revs) Z) J Dm s)
    (hD : Den a' (addEdit ⟨a.nextRevId, g⟩ J Dm s (view (ids a.revs) Z)))
    (hu : a'.undoneGroups = a.undoneGroups) (hs : a'.session = a.session) (hr : a'.revs = a.revs ++ [r])
    (hr' : r = ⟨a.nextRevId, m, .edit p g i d⟩) :
    ∃ Z' pr' grp', Peers Z' pr' grp' a' b := by
  have hna := h.left.den.revsOk.nodup
  have hnb := h.right.den.revsOk.nodup
  generalize hnn : a.nextRevId = n at *
  have hnses : n.sessionId = a.session := by rw [← hnn]; rfl
  have hnA : n ∉ ids a.revs := by rw [← hnn]; exact h.left.den.fresh_id
  have hnB : n ∉ ids b.revs := by
    intro hm'
    by_cases ha : n ∈ ids a.revs
    · exact hnA ha
    · have := h.sesR n (mem_onlyIn.2 ⟨hm', ha⟩)
      rw [hnses] at this
      exact h.ses this
  have hrid : r.revId = n := by rw [hr']
  have hids : ids a'.revs = ids a.revs ++ [n] := by rw [hr, ids_append]; simp [hrid]
  -- the place of the new characters
  have hnd : (ids a.revs ++ [n] ++ onlyIn b a).Nodup := by
    rw [List.nodup_append, List.nodup_append]
    refine ⟨⟨hna, by simp, ?_⟩, List.filter_sublist.nodup hnb, ?_⟩
    · intro x hx y hy
      simp only [List.mem_singleton] at hy
      subst hy; rintro rfl; exact hnA hx
    · intro x hx y hy
      rintro rfl
      have hy := mem_onlyIn.1 hy
      simp only [List.mem_append, List.mem_singleton] at hx
      rcases hx with hx | rfl
      · exact hy.2 hx
      · exact hnB hy.1
  have hsame : ∀ x, x ∈ ids a.revs ++ onlyIn b a ↔ x ∈ ids a.revs ++ ids b.revs := by
    intro x
    simp only [List.mem_append, mem_onlyIn]
    by_cases hxa : x ∈ ids a.revs <;> simp [hxa]
  obtain ⟨Z', hext, q1, q2, q3, q4, w5⟩ := h.left.place h.zok hnA hnd
    (fun c hc => ⟨by rw [present_congr hsame]; exact (h.known c hc).1, fun d hd => (hsame _).2 ((h.known c hc).2 d hd)⟩) hm hD hu hr hr'
  refine ⟨Z', setRev pr n p, setRev grp n g, ⟨q1, q2, q3 b h.right hnB, ?_, by rw [hs]; exact h.ses, ?_, ?_, ?_⟩⟩
  · -- the order of concurrent insertions
    have hboth : inBoth a' b = inBoth a b := by
      unfold inBoth
      rw [hids, List.filter_append]
      simp [hnB]
    have hAl : onlyIn a' b = onlyIn a b ++ [n] := by
      unfold onlyIn
      rw [hids, List.filter_append]
      simp [hnB]
    have hBl : onlyIn b a' = onlyIn b a := by
      unfold onlyIn
      rw [hids]
      apply List.filter_congr
      intro x hx
      have : x ≠ n := by rintro rfl; exact hnB hx
      rw [Bool.eq_iff_iff]; simp [this]
    rw [hboth, hAl, hBl]
    intro A1 x A2 B1 y B2 hA hB
    have hyB : y ∈ onlyIn b a := by rw [hB]; simp
    have hyn : y ≠ n := by rintro rfl; exact hnB (mem_onlyIn.1 hyB).1
    rcases List.eq_nil_or_concat A2 with rfl | ⟨A3, z, rfl⟩
    · obtain ⟨rfl, h7⟩ := List.append_inj' hA rfl
      simp only [List.cons.injEq, and_true] at h7
      subst h7
      have := w5 B1 y B2 hB
      rw [unionAt_congr (T := inBoth a b ++ onlyIn a b ++ B1 ++ [n, y])] at this
      · exact this
      · intro x
        simp only [List.mem_append, List.mem_cons, List.not_mem_nil, or_false, mem_inBoth, mem_onlyIn]
        by_cases hxb : x ∈ ids b.revs <;> simp [hxb]
    · rw [List.concat_eq_append, ← List.cons_append, ← List.append_assoc] at hA
      obtain ⟨h7, h8⟩ := List.append_inj' hA rfl
      have hxA : x ∈ onlyIn a b := by rw [h7]; simp
      have hxn : x ≠ n := by rintro rfl; exact hnA (mem_onlyIn.1 hxA).1
      have := h.cells A1 x A3 B1 y B2 h7 hB
      have e1 : fullPrio (setRev pr n p) x = fullPrio pr x := by simp [fullPrio, setRev, hxn]
      have e2 : fullPrio (setRev pr n p) y = fullPrio pr y := by simp [fullPrio, setRev, hyn]
      rw [e1, e2]
      refine ord_of_ext hext ?_ this
      intro hm'
      simp only [List.mem_append, List.mem_cons, List.not_mem_nil, or_false] at hm'
      rcases hm' with ((hm' | hm') | hm') | hm' | hm'
      · exact hnA (mem_inBoth.1 hm').1
      · exact hnA (mem_onlyIn.1 (by rw [h7]; simp [hm'] : n ∈ onlyIn a b)).1
      · exact hnB (mem_onlyIn.1 (by rw [hB]; simp [hm'] : n ∈ onlyIn b a)).1
      · exact hxn hm'.symm
      · exact hyn hm'.symm
  · intro x hx
    obtain ⟨h1, h2⟩ := mem_onlyIn.1 hx
    rw [hids] at h1
    simp only [List.mem_append, List.mem_singleton] at h1
    rw [hs]
    rcases h1 with h1 | rfl
    · exact h.sesL x (mem_onlyIn.2 ⟨h1, h2⟩)
    · exact hnses
  · intro x hx
    obtain ⟨h1, h2⟩ := mem_onlyIn.1 hx
    exact h.sesR x (mem_onlyIn.2 ⟨h1, fun hm' => h2 (by rw [hids]; simp [hm'])⟩)
  · intro c hc
    have hsub : ∀ x, x ∈ ids a.revs ++ onlyIn b a ++ [n] ↔ x ∈ ids a'.revs ++ ids b.revs := by
      intro x
      rw [List.mem_append, hsame, hids]
      simp only [List.mem_append]
      grind
    exact ⟨by rw [← present_congr hsub]; exact (q4 c hc).1, fun d hd => (hsub _).1 ((q4 c hc).2 d hd)⟩

end Xi
