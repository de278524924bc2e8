import Verif.Rope.MergeDen

/-!
# `merge` on a shared document
-/

namespace Xi

variable {α : Type}

open Chr

/-- The engine that a state of `rebase` stands for. -/
def RebaseState.engine (st : RebaseState α) (e : Engine α) : Engine α :=
  { e with text := st.text, tombstones := st.tombstones, deletesFromUnion := st.dels, revs := e.revs ++ st.out }

theorem closed_snoc {Z : List (Chr α)} {S : List RevId} (hS : Closed Z S) {b : RevId}
    (hb : ∀ c ∈ Z, c.deletedBy b = true → c.present S = true) : Closed Z (S ++ [b]) := by
  intro c hc d hd hm
  simp only [List.mem_append, List.mem_singleton] at hm
  apply present_mono (S := S) (by intro x hx; simp [hx])
  rcases hm with hm | hm
  · exact hS c hc d hd hm
  · exact hb c hc (deletedBy_iff.2 ⟨d, hd, hm⟩)

theorem view_map_insMark (Z : List (Chr α)) (S) (b : RevId) :
    (view S Z).map (insMark b) = (unionAt Z S).map (insMark b) := by
  unfold view; rw [List.map_map]; rfl

theorem view_map_delMark (Z : List (Chr α)) {S} {b : RevId} (hb : b ∈ S) :
    (view S Z).map (delMark b) = (unionAt Z S).map (delMark b) := by
  unfold view; rw [List.map_map]
  apply List.map_congr_left
  intro c _
  exact only_delMark hb c

theorem view_filter_inserted (Z : List (Chr α)) (S) (b : RevId) :
    ((view S Z).filter (insertedBy b)).map val = ((unionAt Z S).filter (insertedBy b)).map val := by
  unfold view; rw [List.filter_map, List.map_map]; rfl

theorem rebase_fold {Z : List (Chr α)} {pr grp : RevId → Nat} (hz : ZOk Z grp) {X A B tail : List RevId}
    (hc : Cells pr Z X A B) (hn : (X ++ A ++ B).Nodup)
    (htail : ∀ a ∈ tail, ∀ c ∈ Z, c.insertedBy a = false) {e : Engine α} (he : ∀ x, x ∈ ids e.revs ↔ x ∈ X ++ A)
    (hu : e.undoneGroups = []) (hses : ∀ b ∈ B, b.sessionId ≠ e.session) :
    ∀ (ops : List (DeltaOp α)) (B1 : List RevId) (st : RebaseState α) (L : List Grp),
    B = B1 ++ ops.map DeltaOp.revId → OpsOk Z (X ++ B1) ops →
    (∀ op ∈ ops, op.priority = pr op.revId ∧ op.undoGroup = grp op.revId) →
    Trans Z pr (X ++ B1) L → A = flat L ++ tail → st.expandBy = L.map Grp.strip →
    Den (st.engine e) (view (ids e.revs ++ B1) Z) → ids st.out = B1 → Closed Z (ids e.revs ++ B1) →
    (st.engine e).maxUndoGroupId = some st.maxUndo →
    ∃ st', ops.foldlM rebaseOuter st = some st' ∧ Den (st'.engine e) (view (ids e.revs ++ B) Z) ∧
      ids st'.out = B ∧ Closed Z (ids e.revs ++ B) ∧
      ∃ out, st'.out = st.out ++ out ∧ ∀ r ∈ out, ∃ i d, r.edit = .edit (pr r.revId) (grp r.revId) i d := by
  intro ops
  induction ops with
  | nil =>
    intro B1 st L hB _ _ _ _ _ hD hout hcl _
    simp only [List.map_nil, List.append_nil] at hB
    subst hB
    exact ⟨st, rfl, hD, hout, hcl, [], by simp⟩
  | cons op ops ih =>
    intro B1 st L hB hops hpg hT hA hex hD hout hcl hmu
    have hop := hops [] op ops rfl
    simp only [List.map_nil, List.append_nil] at hop
    obtain ⟨hp, hg⟩ := hpg op (by simp)
    have hB' : B = B1 ++ op.revId :: ops.map DeltaOp.revId := by simpa using hB
    -- where we are
    have hset : ∀ x, x ∈ ids e.revs ++ B1 ↔ x ∈ X ++ B1 ++ flat L ++ tail := by
      intro x; simp only [List.mem_append, he, hA]; grind
    have hU : unionAt Z (ids e.revs ++ B1) = unionAt Z (X ++ B1 ++ flat L) := by
      rw [unionAt_congr hset, unionAt_chars _ _ htail]
    have hU' : unionAt Z (ids e.revs ++ B1 ++ [op.revId]) = unionAt Z (X ++ B1 ++ flat L ++ [op.revId]) := by
      rw [unionAt_congr (T := X ++ B1 ++ flat L ++ [op.revId] ++ tail), unionAt_chars _ _ htail]
      intro x; rw [List.mem_append, hset]; simp only [List.mem_append]; grind
    have hbS : op.revId ∉ ids e.revs ++ B1 := by
      rw [hB'] at hn
      simp only [List.nodup_append, List.mem_append, List.mem_cons, List.nodup_cons, he] at hn ⊢
      grind
    obtain ⟨inn, L', a1, a2, a3, a4, a5, a6, a7⟩ := rebaseInner_fold hc hn hB' hop.delOk hA hT L [] []
      ⟨op.inserts, op.deletes, []⟩ rfl hop.pos (by simpa using hop.ins) (by simpa using hop.dels)
      (Trans.nil _ _ _) rfl rfl
    -- the new edit
    have hext := view_ext hz hcl hbS
    rw [← hU, ← hU'] at a3
    rw [← hU'] at a4
    have hins : inn.inserts.Denotes (view (ids e.revs ++ B1) Z).length
        ((view (ids e.revs ++ B1 ++ [op.revId]) Z).map (insMark op.revId))
        (((view (ids e.revs ++ B1 ++ [op.revId]) Z).filter (insertedBy op.revId)).map val) := by
      rw [view_map_insMark, view_filter_inserted, view, List.length_map]
      exact a3
    have hdels : inn.deletes.Is ((view (ids e.revs ++ B1 ++ [op.revId]) Z).map (delMark op.revId)) := by
      rw [view_map_delMark _ (by simp)]; exact a4
    have hids : ids (st.engine e).revs = ids e.revs ++ B1 := by simp [RebaseState.engine, hout]
    obtain ⟨ti, tx, i, rb, nD, nt, ntb, b1, b2, b3, b4, b5, b6, b7⟩ := hD.addRev hu hext (by rw [hids]; exact hbS)
      (hses _ (by simp [hB'])) (pr op.revId) hins a2 hdels hmu
    simp only [RebaseState.engine] at b1 b2 b3 b4 b5 b6 b7
    let st1 : RebaseState α := ⟨inn.next, nt, ntb, nD, max st.maxUndo op.undoGroup,
      st.out ++ [⟨op.revId, max st.maxUndo op.undoGroup, .edit op.priority op.undoGroup i inn.deletes⟩]⟩
    have hstep : rebaseOuter st op = some st1 := by
      unfold rebaseOuter
      have : (⟨op.priority, op.revId.sessionId⟩ : FullPriority) = fullPrio pr op.revId := by
        rw [hp]; rfl
      rw [this, hex, a1]
      simp [b1, b2, b3, b4, b5, b6, st1]
    obtain ⟨st', r1, r2, r3, r4, out, r5, r6⟩ := ih (B1 ++ [op.revId]) st1 L' (by simp [hB'])
      (by
        intro pre o post hs
        have := hops (op :: pre) o post (by simp [hs])
        simpa using this)
      (fun o ho => hpg o (by simp [ho])) (by simpa using a5) (by rw [a6]; exact hA) a7
      (by
        have e1 : st1.engine e = { e with
            text := nt, tombstones := ntb, deletesFromUnion := nD,
            revs := e.revs ++ st.out ++ [⟨op.revId, max st.maxUndo (grp op.revId),
              .edit (pr op.revId) (grp op.revId) i inn.deletes⟩] } := by
          simp [st1, RebaseState.engine, hp, hg]
        rw [e1]
        rw [← List.append_assoc]
        exact b7)
      (by simp [st1, hout])
      (by rw [← List.append_assoc]; exact closed_snoc hcl (fun c hc hd => present_mono
            (by intro x hx; simp only [List.mem_append, he] at hx ⊢; grind) (hop.delOk c hc hd)))
      (by simp [Engine.maxUndoGroupId, RebaseState.engine, st1])
    refine ⟨st', ?_, r2, r3, r4, ⟨op.revId, max st.maxUndo op.undoGroup, .edit op.priority op.undoGroup i inn.deletes⟩ :: out,
      ?_, ?_⟩
    · rw [List.foldlM_cons, hstep]; exact r1
    · rw [r5]; simp [st1]
    · intro r hr
      simp only [List.mem_cons] at hr
      rcases hr with rfl | hr
      · exact ⟨i, inn.deletes, by simp [hp, hg]⟩
      · exact r6 r hr

/-- The edits of `a` that `b` does not know, in order. -/
def onlyIn (a b : Engine α) : List RevId := (ids a.revs).filter (fun x => !(ids b.revs).contains x)

/-- The edits both know, in the order of `a`. -/
def inBoth (a b : Engine α) : List RevId := (ids a.revs).filter (fun x => (ids b.revs).contains x)

theorem mem_onlyIn {a b : Engine α} {x : RevId} : x ∈ onlyIn a b ↔ x ∈ ids a.revs ∧ x ∉ ids b.revs := by
  simp [onlyIn]

theorem mem_inBoth {a b : Engine α} {x : RevId} : x ∈ inBoth a b ↔ x ∈ ids a.revs ∧ x ∈ ids b.revs := by
  simp [inBoth]

theorem ids_info {revs out : List Revision} (h : out.map Revision.info = revs.map Revision.info) : ids out = ids revs := by
  have := congrArg (List.map (fun x => x.1)) h
  simpa [ids, Revision.info, Function.comp_def] using this

theorem view_len (Z : List (Chr α)) (S) : (view S Z).length = (unionAt Z S).length := by simp [view]

theorem Peer.dels {Z : List (Chr α)} {pr grp : RevId → Nat} {e : Engine α} (h : Peer Z pr grp e) :
    ∃ f : Chr α → Nat, e.deletesFromUnion.Is ((unionAt Z (ids e.revs)).map f) ∧
      e.text = keep ((unionAt Z (ids e.revs)).map f) ((unionAt Z (ids e.revs)).map val) ∧
      e.tombstones = keep (flipMask ((unionAt Z (ids e.revs)).map f)) ((unionAt Z (ids e.revs)).map val) := by
  refine ⟨fun c => (c.only (ids e.revs)).cnt e.undoneGroups (ids e.revs), ?_, ?_, ?_⟩
  · have := h.den.dels
    unfold view at this
    rw [List.map_map] at this
    exact this
  · have := h.den.text
    unfold view at this
    rw [List.map_map, List.map_map] at this
    exact this
  · have := h.den.tombs
    unfold view at this
    rw [List.map_map, List.map_map] at this
    exact this

theorem Peer.split {Z : List (Chr α)} {pr grp : RevId → Nat} {e : Engine α} (h : Peer Z pr grp e) :
    ∃ r0 rest, e.revs = r0 :: rest ∧ r0.revId = ⟨0, 0, 0⟩ ∧ (∀ r ∈ rest, r.revId ≠ ⟨0, 0, 0⟩) ∧
      ∀ r ∈ rest, ∃ i d, r.edit = .edit (pr r.revId) (grp r.revId) i d := by
  obtain ⟨r0, rest, h1, h2, h3⟩ := h.head
  refine ⟨r0, rest, h1, h2, ?_, h3⟩
  intro r hr he
  have hn := h.den.revsOk.nodup
  rw [h1] at hn
  simp only [ids_cons, List.nodup_cons] at hn
  exact hn.1 (by rw [h2, ← he]; exact mem_ids.2 ⟨r, hr, rfl⟩)

theorem merge_spec {Z : List (Chr α)} {pr grp : RevId → Nat} (hz : ZOk Z grp) {a b : Engine α}
    (ha : Peer Z pr grp a) (hb : Peer Z pr grp b)
    (hc : Cells pr Z (inBoth a b) (onlyIn a b) (onlyIn b a))
    {own : Nat → Nat × Nat} (hsa : ∀ x ∈ onlyIn a b, x.sessionId = own (pr x))
    (hsb : ∀ x ∈ onlyIn b a, x.sessionId ≠ a.session) :
    ∃ a', a.merge b = some a' ∧ Peer Z pr grp a' ∧ ids a'.revs = ids a.revs ++ onlyIn b a ∧
      a'.session = a.session ∧ a'.revIdCounter = a.revIdCounter ∧ (onlyIn b a = [] → a' = a) := by
  obtain ⟨ra, resta, ha1, ha2, ha3, ha4⟩ := ha.split
  obtain ⟨rb, restb, hb1, hb2, hb3, hb4⟩ := hb.split
  have hna := ha.den.revsOk.nodup
  have hnb := hb.den.revsOk.nodup
  have hHa := ha.hist hz ha1
  have hHb := hb.hist hz hb1
  rw [ha2] at hHa
  rw [hb2] at hHb
  have hida : ids a.revs = ⟨0, 0, 0⟩ :: ids resta := by rw [ha1, ids_cons, ha2]
  have hidb : ids b.revs = ⟨0, 0, 0⟩ :: ids restb := by rw [hb1, ids_cons, hb2]
  have hma : (⟨0, 0, 0⟩ : RevId) ∉ ids resta := by
    intro hm; obtain ⟨r, h1, h2⟩ := mem_ids.1 hm; exact ha3 r h1 h2
  have hmb : (⟨0, 0, 0⟩ : RevId) ∉ ids restb := by
    intro hm; obtain ⟨r, h1, h2⟩ := mem_ids.1 hm; exact hb3 r h1 h2
  have hna' : ([⟨0, 0, 0⟩] ++ ids resta : List RevId).Nodup := by simpa [hida] using hna
  have hnb' : ([⟨0, 0, 0⟩] ++ ids restb : List RevId).Nodup := by simpa [hidb] using hnb
  obtain ⟨fa, da1, da2, da3⟩ := ha.dels
  obtain ⟨fb, db1, db2, db3⟩ := hb.dels
  -- the common edits
  have hcomm : ∀ x, x ∈ findCommon resta restb ↔ x ∈ ids resta ∧ x ∈ ids restb := by
    intro x; unfold findCommon; simp only [List.mem_filter, List.contains_iff_mem]; rfl
  generalize hC : findCommon resta restb = C at hcomm
  have hboth : ∀ x, x ∈ inBoth a b ↔ x ∈ [(⟨0, 0, 0⟩ : RevId)] ++ C := by
    intro x
    rw [mem_inBoth, hida, hidb]
    simp only [List.mem_cons, List.mem_append, List.not_mem_nil, or_false, hcomm]
    grind
  have hA : onlyIn a b = (ids resta).filter (fun x => !C.contains x) := by
    unfold onlyIn
    rw [hida, hidb, List.filter_cons, if_neg (by simp)]
    apply List.filter_congr
    intro x hx
    have : x ≠ ⟨0, 0, 0⟩ := by rintro rfl; exact hma hx
    rw [Bool.eq_iff_iff]
    simp [this, hcomm, hx]
  have hB : onlyIn b a = (ids restb).filter (fun x => !C.contains x) := by
    unfold onlyIn
    rw [hida, hidb, List.filter_cons, if_neg (by simp)]
    apply List.filter_congr
    intro x hx
    have : x ≠ ⟨0, 0, 0⟩ := by rintro rfl; exact hmb hx
    rw [Bool.eq_iff_iff]
    simp [this, hcomm, hx]
  have hfilt : ∀ l : List Revision, (ids l).filter (fun x => !C.contains x) = ids (l.filter (fun r => !C.contains r.revId)) := by
    intro l; unfold ids; rw [List.filter_map]; rfl
  -- rearranging
  obtain ⟨aNew, p1, p2, p3⟩ := rearrange_spec hHa hna' (C := C) (fun x hx => ((hcomm x).1 hx).1)
  obtain ⟨bNew, q1, q2, q3⟩ := rearrange_spec hHb hnb' (C := C) (fun x hx => ((hcomm x).1 hx).2)
  have pids : ids aNew = onlyIn a b := by rw [ids_info p3, hA, hfilt]
  have qids : ids bNew = onlyIn b a := by rw [ids_info q3, hB, hfilt]
  have hlena : a.deletesFromUnion.len = (unionAt Z ([⟨0, 0, 0⟩] ++ ids resta)).length := by
    rw [da1.len, hida]; simp
  have hlenb : b.deletesFromUnion.len = (unionAt Z ([⟨0, 0, 0⟩] ++ ids restb)).length := by
    rw [db1.len, hidb]; simp
  rw [← hlena] at p1
  rw [← hlenb] at q1
  have hCn : ([(⟨0, 0, 0⟩ : RevId)] ++ C).Nodup := by
    rw [List.nodup_append]
    refine ⟨by simp, ?_, ?_⟩
    · rw [← hC]
      unfold findCommon
      exact List.filter_sublist.nodup (by rw [List.nodup_append] at hna'; exact hna'.2.1)
    · intro x hx y hy
      simp only [List.mem_singleton] at hx
      subst hx
      rintro rfl
      exact hma ((hcomm _).1 hy).1
  have hall : ([(⟨0, 0, 0⟩ : RevId)] ++ C ++ onlyIn a b ++ onlyIn b a).Nodup := by
    rw [List.nodup_append, List.nodup_append]
    refine ⟨⟨hCn, List.filter_sublist.nodup hna, ?_⟩, List.filter_sublist.nodup hnb, ?_⟩
    · intro x hx y hy
      rintro rfl
      exact (mem_onlyIn.1 hy).2 ((mem_inBoth.1 ((hboth x).2 hx)).2)
    · intro x hx y hy
      rintro rfl
      rw [List.mem_append] at hx
      rcases hx with hx | hx
      · exact (mem_onlyIn.1 hy).2 ((mem_inBoth.1 ((hboth x).2 hx)).1)
      · exact (mem_onlyIn.1 hy).2 (mem_onlyIn.1 hx).1
  -- the operations
  obtain ⟨ops, o1, o2, o3⟩ := computeDeltas_spec db1 q2
    (by rw [qids]; rw [List.nodup_append] at hall ⊢
        refine ⟨hCn, hall.2.1, fun x hx y hy => hall.2.2 x (by rw [List.mem_append]; exact Or.inl hx) y hy⟩)
    (by intro x; rw [qids, List.mem_append, ← hboth, mem_inBoth, mem_onlyIn]
        by_cases h : x ∈ ids a.revs <;> simp [h])
  rw [← db2, ← db3] at o1
  have hopids : ops.map DeltaOp.revId = onlyIn b a := by
    have := congrArg (List.map (fun x => x.1)) o3
    rw [← qids]
    simpa [DeltaOp.info, Revision.info, Function.comp_def, ids] using this
  -- what is known about the rearranged revisions
  have hinfo : ∀ (rest new : List Revision), new.map Revision.info = (rest.filter (fun r => !C.contains r.revId)).map Revision.info →
      (∀ r ∈ rest, ∃ i d, r.edit = .edit (pr r.revId) (grp r.revId) i d) →
      ∀ r ∈ new, r.info.2.2 = some (pr r.revId, grp r.revId) := by
    intro rest new hnew hrest r hr
    have : r.info ∈ (rest.filter (fun r => !C.contains r.revId)).map Revision.info := by
      rw [← hnew]; exact List.mem_map_of_mem hr
    obtain ⟨r', h1, h2⟩ := List.mem_map.1 this
    obtain ⟨i, d, h3⟩ := hrest r' (List.mem_filter.1 h1).1
    have hid : r'.revId = r.revId := congrArg (fun x => x.1) h2
    rw [← h2, ← hid]
    simp [Revision.info, h3]
  have hopinfo : ∀ op ∈ ops, op.priority = pr op.revId ∧ op.undoGroup = grp op.revId := by
    intro op hop
    have : op.info ∈ bNew.map (fun r => (r.info.1, r.info.2.2)) := by rw [← o3]; exact List.mem_map_of_mem hop
    obtain ⟨r, h1, h2⟩ := List.mem_map.1 this
    have h3 := hinfo _ _ q3 hb4 r h1
    have hid : r.revId = op.revId := congrArg (fun x => x.1) h2
    have h4 : r.info.2.2 = some (op.priority, op.undoGroup) := congrArg (fun x => x.2) h2
    rw [h3, hid] at h4
    simp at h4
    exact ⟨h4.1.symm, h4.2.symm⟩
  -- the transforms
  obtain ⟨L, tail, t1, t2, t3, t4⟩ := computeTransforms_spec (pr := pr) (own := own) p2
    (by rw [pids]; rw [List.nodup_append] at hall; exact hall.1)
    (by
      intro r hr
      refine ⟨hsa _ (by rw [← pids]; exact mem_ids.2 ⟨r, hr, rfl⟩), ?_⟩
      intro p g i d he
      have := hinfo _ _ p3 ha4 r hr
      simp [Revision.info, he] at this
      exact this.1.symm)
  -- rebasing
  obtain ⟨pre, last, hl1, hl2⟩ := ha.den.last
  obtain ⟨st, s1, s2, s3, s4, out, s5, s6⟩ := rebase_fold hz (hc.congr hboth) hall t4 (e := a)
    (by intro x; rw [List.mem_append, ← hboth, mem_inBoth, mem_onlyIn]
        by_cases h : x ∈ ids b.revs <;> simp [h])
    ha.undone hsb ops [] ⟨L.map Grp.strip, a.text, a.tombstones, a.deletesFromUnion, last.maxUndoSoFar, []⟩ L
    (by simp [hopids]) (by simpa using o2) hopinfo (by simpa using t2) (by rw [t3, pids]) rfl
    (by
      have e1 : RebaseState.engine ⟨L.map Grp.strip, a.text, a.tombstones, a.deletesFromUnion, last.maxUndoSoFar, []⟩ a = a := by
        simp [RebaseState.engine]
      rw [e1]
      simpa using ha.den) rfl (by simpa using ha.closed)
    (by simp [Engine.maxUndoGroupId, RebaseState.engine, hl2])
  refine ⟨st.engine a, ?_, ?_, by simp [RebaseState.engine, s3], rfl, rfl, ?_⟩
  · unfold Engine.merge
    have hbase : findBaseIndex a.revs b.revs = some 1 := by
      rw [ha1, hb1]; simp [findBaseIndex, ha2, hb2]
    have hda : a.revs.drop 1 = resta := by rw [ha1]; rfl
    have hdb : b.revs.drop 1 = restb := by rw [hb1]; rfl
    simp only [hbase, Option.bind_eq_bind, Option.bind_some, hda, hdb, hC, p1, q1, o1, t1,
      Engine.maxUndoGroupId, hl2, Option.map_some, rebase, s1, Option.pure_def]
    rfl
  · have hids : ids (st.engine a).revs = ids a.revs ++ onlyIn b a := by simp [RebaseState.engine, s3]
    refine ⟨by rw [hids]; exact s2, by rw [hids]; exact s4, ha.undone, ra, resta ++ st.out, by simp [RebaseState.engine, ha1], ha2, ?_⟩
    intro r hr
    rw [List.mem_append] at hr
    rcases hr with hr | hr
    · exact ha4 r hr
    · rw [s5] at hr
      exact s6 r (by simpa using hr)
  · intro h0
    rw [h0, List.map_eq_nil_iff] at hopids
    subst hopids
    simp only [List.foldlM_nil, Option.pure_def, Option.some.injEq] at s1
    subst s1
    simp [RebaseState.engine]

end Xi
