import Verif.Rope.EngineEdit

/-!
# Garbage collection preserves the engine invariant

`retain` is the list of revision ids that are kept in any case (the last
revision); `gcs` the collected groups.
-/

namespace Xi

variable {α : Type}

open Chr

theorem opt_ite_bind {β γ : Type} {c : Prop} [Decidable c] (a x : Option β) (F : β → Option γ) :
    (if c then a.bind F else x.bind F) = (if c then a else x).bind F := by
  split <;> rfl

theorem keep_zipWith (op : Nat → Nat → Nat) : ∀ (m a b : List Nat), a.length = m.length → b.length = m.length →
    keep m (List.zipWith op a b) = List.zipWith op (keep m a) (keep m b) := by
  intro m
  induction m with
  | nil => intro a b ha hb; simp at ha hb; simp [ha]
  | cons x m ih =>
    intro a b ha hb
    cases a with
    | nil => simp at ha
    | cons u a => cases b with
      | nil => simp at hb
      | cons v b =>
        simp at ha hb
        cases x <;> simp [ih a b ha hb]

/-- The edit's revision is collected. -/
def goneLab (retain : List RevId) (gcs : List Nat) (a : Lab) : Bool :=
  !retain.contains a.id && gcs.contains a.group

/-- The revision is kept. -/
def keptRev (retain : List RevId) (gcs : List Nat) (r : Revision) : Bool :=
  match r.group? with
  | some g => !goneLab retain gcs ⟨r.revId, g⟩
  | none => retain.contains r.revId

namespace Chr

/-- Only the labels that satisfy `p`. -/
def restrict (p : Lab → Bool) (c : Chr α) : Chr α :=
  { c with insBy := c.insBy.filter p, delBy := c.delBy.filter p }

variable {p : Lab → Bool}

@[simp] theorem val_restrict (c : Chr α) : (c.restrict p).val = c.val := rfl

theorem restrict_insBy_some {c : Chr α} {a : Lab} (h : (c.restrict p).insBy = some a) :
    c.insBy = some a ∧ p a = true := by
  simpa [restrict, Option.filter_eq_some_iff] using h

/-- How often a collected edit deletes the character. -/
def gm (q : Lab → Bool) (G : List Nat) (pre : List RevId) (c : Chr α) : Nat := (c.restrict q).cnt G pre

theorem gm_add (q : Lab → Bool) (G : List Nat) (pre : List RevId) (c : Chr α) :
    c.gm q G pre + (c.restrict (fun a => !q a)).cnt G pre = c.cnt G pre := by
  have : ∀ (ds : List Lab) (f : Lab → Bool),
      (ds.filter q).countP f + (ds.filter (fun a => !q a)).countP f = ds.countP f := by
    intro ds f
    induction ds with
    | nil => simp
    | cons d ds ih =>
      by_cases hq : q d <;> simp [hq, List.countP_cons, ← ih] <;> omega
  unfold gm cnt restrict
  rw [← this c.delBy]
  cases c.insBy with
  | none => simp
  | some a => by_cases hq : q a <;> simp [hq, Option.filter] <;> omega

end Chr

section
variable {l : List (Chr α)} {revs pre post : List Revision} {r : Revision} {q : Lab → Bool}

theorem gm_snoc (h : RevsOk l revs) (hs : revs = pre ++ r :: post) {g : Nat} (hg : r.group? = some g)
    {c : Chr α} (hc : c ∈ l) (G : List Nat) :
    c.gm q G (ids pre ++ [r.revId]) = c.gm q G (ids pre) +
      (if q ⟨r.revId, g⟩ && !G.contains g then c.delMark r.revId else 0) := by
  have hlab : ∀ d ∈ c.delBy, d.id = r.revId → d = ⟨r.revId, g⟩ := by
    intro d hd he
    have := h.lab_group hs ((h.chr c hc).delLab d hd) he
    rw [hg] at this
    cases d; simp_all
  unfold gm cnt
  rw [show (c.restrict q).delBy = c.delBy.filter q from rfl, RevsOk.countP_snoc (g := g) ((h.chr c hc).nodup.sublist (List.filter_sublist.map _)) (h.notMem hs)
    (fun d hd he => by rw [hlab d (List.mem_filter.1 hd).1 he]), Nat.add_assoc]
  congr 2
  unfold delMark deletedBy
  simp only [List.any_filter]
  by_cases hq : q ⟨r.revId, g⟩ = true
  · have : (c.delBy.any fun d => q d && d.id == r.revId) = c.delBy.any fun d => d.id == r.revId := by
      rw [Bool.eq_iff_iff, List.any_eq_true, List.any_eq_true]
      constructor
      · rintro ⟨d, h1, h2⟩; exact ⟨d, h1, by simp_all⟩
      · rintro ⟨d, h1, h2⟩
        refine ⟨d, h1, ?_⟩
        simp only [beq_iff_eq] at h2
        simp [h2, hlab d h1 h2, hq]
    rw [this, hq]
    cases G.contains g <;> simp
  · have : (c.delBy.any fun d => q d && d.id == r.revId) = false := by
      rw [List.any_eq_false]
      intro d h1 h2
      simp only [Bool.and_eq_true, beq_iff_eq] at h2
      rw [hlab d h1 h2.2] at h2
      exact hq h2.1
    simp [this, hq]

theorem gm_undo (h : RevsOk l revs) (hs : revs = pre ++ r :: post) (hg : r.group? = none)
    {c : Chr α} (hc : c ∈ l) (G : List Nat) : c.gm q G (ids pre ++ [r.revId]) = c.gm q G (ids pre) := by
  unfold gm cnt
  congr 1
  apply List.countP_congr
  intro d hd
  have : d.id ≠ r.revId := fun he => by
    have := h.lab_group hs ((h.chr c hc).delLab d (List.mem_filter.1 hd).1) he
    rw [hg] at this; cases this
  simp [this]

theorem gm_inserted (h : RevsOk l revs) (hs : revs = pre ++ r :: post) {g : Nat} (hg : r.group? = some g)
    {c : Chr α} (hc : c ∈ l) (hi : c.insMark r.revId ≠ 0) (G : List Nat) :
    c.gm q G (ids pre) = if q ⟨r.revId, g⟩ && G.contains g then 1 else 0 := by
  have h0 := gm_add q G (ids pre) c
  rw [h.cnt_inserted hs hg hc hi G] at h0
  unfold insMark insertedBy at hi
  cases ha : c.insBy with
  | none => simp [ha] at hi
  | some a =>
    simp [ha] at hi
    have hag := h.lab_group hs ((h.chr c hc).insLab a ha) hi
    rw [hg] at hag
    have hag := Option.some.inj hag
    have haa : a = ⟨r.revId, g⟩ := by cases a; simp_all
    by_cases hG : G.contains g = true
    · by_cases hq : q ⟨r.revId, g⟩ = true
      · have : 1 ≤ c.gm q G (ids pre) := by
          unfold gm cnt restrict
          have hm : g ∈ G := by simpa using hG
          simp [ha, haa, hq, hm, Option.filter]
        simp only [hG, hq, if_true, Bool.and_self] at h0 ⊢
        omega
      · have : 1 ≤ (c.restrict (fun a => !q a)).cnt G (ids pre) := by
          unfold cnt restrict
          have hm : g ∈ G := by simpa using hG
          simp [ha, haa, hq, hm, Option.filter]
        simp only [hG, hq, if_true, Bool.and_true] at h0 ⊢
        simp
        omega
    · rw [if_neg hG] at h0
      simp only [Bool.not_eq_true] at hG
      simp only [hG, Bool.and_false, Bool.false_eq_true, if_false]
      omega

theorem gm_mono_pre (h : RevsOk l revs) (hs : revs = pre ++ post) {c : Chr α} (hc : c ∈ l) (G : List Nat) :
    c.gm q G (ids pre) ≤ c.gm q G (ids revs) := by
  unfold gm cnt
  apply Nat.add_le_add_left
  apply List.countP_mono_left
  intro d _ hd
  subst hs
  simp at hd ⊢
  exact ⟨Or.inl hd.1, hd.2⟩

/-- The first loop of `gc`. -/
theorem RevsOk.gcDels (h : RevsOk l revs) (retain : List RevId) (gcs G : List Nat) :
    ∀ (post pre : List Revision), revs = pre ++ post →
    ∀ (S : Subset), S.Is ((unionAt l (ids pre)).map (gm (goneLab retain gcs) G (ids pre))) →
    ∃ S', post.foldlM (Engine.gcDelsStep retain gcs G) S = some S' ∧
      S'.Is (l.map (gm (goneLab retain gcs) G (ids revs))) := by
  intro post
  induction post with
  | nil =>
    intro pre hs S hS
    refine ⟨S, rfl, ?_⟩
    rw [List.append_nil] at hs
    rw [← hs, h.unionAt_all] at hS
    exact hS
  | cons r post ih =>
    intro pre hs S hS
    have hr := h.rev pre r post hs
    unfold RevOk at hr
    simp only [List.foldlM_cons, Engine.gcDelsStep]
    have e1 : (unionAt l (ids pre)).map (gm (goneLab retain gcs) G (ids pre)) =
        ((unionAt l (ids pre ++ [r.revId])).filter (fun c => c.insMark r.revId == 0)).map
          (gm (goneLab retain gcs) G (ids pre)) := by
      rw [RevsOk.unionAt_snoc (h.notMem hs)]
    have hids : ids (pre ++ [r]) = ids pre ++ [r.revId] := by simp
    cases he : r.edit with
    | edit p g ins del =>
      rw [he] at hr
      have hg : r.group? = some g := by simp [Revision.group?, he]
      have hz : ((unionAt l (ids pre)).map (gm (goneLab retain gcs) G (ids pre))).length =
          zeros ((unionAt l (ids pre ++ [r.revId])).map (insMark r.revId)) := by
        rw [h.insMask_zeros hs]; simp
      have hgone : goneLab retain gcs ⟨r.revId, g⟩ = (!retain.contains r.revId && gcs.contains g) := rfl
      simp only
      -- the plain expansion
      have hexp : expandMask ((unionAt l (ids pre ++ [r.revId])).map (insMark r.revId))
          ((unionAt l (ids pre)).map (gm (goneLab retain gcs) G (ids pre))) =
          (unionAt l (ids pre ++ [r.revId])).map (fun c => if c.insMark r.revId = 0 then
            c.gm (goneLab retain gcs) G (ids pre) else 0) := by
        rw [e1, expandMask_map]
      by_cases hgo : (!retain.contains r.revId && gcs.contains g) = true
      · rw [if_pos hgo]
        rw [← hgone] at hgo
        by_cases hG : G.contains g = true
        · rw [if_pos hG]
          obtain ⟨S1, a1, a2⟩ := hS.transUnion_opt hr.1 hz
          rw [a1]
          refine ih (pre ++ [r]) (by simp [hs]) S1 ?_
          rw [hids]
          rw [e1, unionMask_map] at a2
          have : (unionAt l (ids pre ++ [r.revId])).map (fun c => if c.insMark r.revId = 0 then
              c.gm (goneLab retain gcs) G (ids pre) else c.insMark r.revId) =
              (unionAt l (ids pre ++ [r.revId])).map
                (gm (goneLab retain gcs) G (ids pre ++ [r.revId])) := by
            apply List.map_congr_left
            intro c hc
            rw [gm_snoc h hs hg (RevsOk.mem_of_unionAt hc)]
            simp only [hG, Bool.not_true, Bool.and_false, Bool.false_eq_true, if_false, Nat.add_zero]
            split
            · rfl
            · rename_i hi
              rw [gm_inserted h hs hg (RevsOk.mem_of_unionAt hc) hi, hgo, hG]
              revert hi; unfold insMark; split <;> simp
          rw [this] at a2
          exact a2
        · rw [if_neg hG]
          simp only [Bool.not_eq_true] at hG
          obtain ⟨S1, a1, a2⟩ := hS.expand_opt hr.1 hz
          obtain ⟨S2, b1, b2⟩ := a2.union_opt hr.2 (by simp)
          have key : (if ins.isEmpty = true then if del.isEmpty = true then some S else S.union del
              else (S.transformExpand ins).bind fun d => if del.isEmpty = true then some d else d.union del) =
              some S2 := by
            by_cases hi : ins.isEmpty = true
            · rw [if_pos hi] at a1 ⊢
              cases a1; exact b1
            · rw [if_neg hi] at a1 ⊢
              rw [a1]; exact b1
          simp only [Option.bind_eq_bind, Option.pure_def, key, Option.bind_some]
          refine ih (pre ++ [r]) (by simp [hs]) S2 ?_
          rw [hids]
          rw [hexp, zipWith_map_map] at b2
          have : (unionAt l (ids pre ++ [r.revId])).map (fun c => (if c.insMark r.revId = 0 then
              c.gm (goneLab retain gcs) G (ids pre) else 0) + c.delMark r.revId) =
              (unionAt l (ids pre ++ [r.revId])).map
                (gm (goneLab retain gcs) G (ids pre ++ [r.revId])) := by
            apply List.map_congr_left
            intro c hc
            rw [gm_snoc h hs hg (RevsOk.mem_of_unionAt hc)]
            simp only [hgo, hG, Bool.not_false, Bool.and_true, if_true]
            split
            · rfl
            · rename_i hi
              rw [gm_inserted h hs hg (RevsOk.mem_of_unionAt hc) hi, hG]
              simp
          rw [this] at b2
          exact b2
      · rw [if_neg hgo]
        simp only [Bool.not_eq_true] at hgo
        rw [← hgone] at hgo
        obtain ⟨S1, a1, a2⟩ := hS.expand_opt hr.1 hz
        rw [a1]
        refine ih (pre ++ [r]) (by simp [hs]) S1 ?_
        rw [hids]
        rw [hexp] at a2
        have : (unionAt l (ids pre ++ [r.revId])).map (fun c => if c.insMark r.revId = 0 then
            c.gm (goneLab retain gcs) G (ids pre) else 0) =
            (unionAt l (ids pre ++ [r.revId])).map
              (gm (goneLab retain gcs) G (ids pre ++ [r.revId])) := by
          apply List.map_congr_left
          intro c hc
          rw [gm_snoc h hs hg (RevsOk.mem_of_unionAt hc)]
          simp only [hgo, Bool.false_and, Bool.false_eq_true, if_false, Nat.add_zero]
          split
          · rfl
          · rename_i hi
            rw [gm_inserted h hs hg (RevsOk.mem_of_unionAt hc) hi, hgo]
            simp
        rw [this] at a2
        exact a2
    | undo t x =>
      have hg : r.group? = none := by simp [Revision.group?, he]
      simp only [Option.bind_eq_bind, Option.bind_some]
      refine ih (pre ++ [r]) (by simp [hs]) S ?_
      rw [hids, h.unionAt_undo hs hg]
      have : (unionAt l (ids pre)).map (gm (goneLab retain gcs) G (ids pre ++ [r.revId])) =
          (unionAt l (ids pre)).map (gm (goneLab retain gcs) G (ids pre)) := by
        apply List.map_congr_left
        intro c hc
        exact gm_undo h hs hg (RevsOk.mem_of_unionAt hc) G
      rw [this]; exact hS

/-- What `gc` makes of one kept revision: the subsets without the collected
characters. -/
def GcRev (l : List (Chr α)) (m : Chr α → Nat) (gcs : List Nat) (p : List RevId) (r r' : Revision) : Prop :=
  r'.revId = r.revId ∧ r'.maxUndoSoFar = r.maxUndoSoFar ∧
  match r.edit with
  | .edit prio g _ _ => ∃ ins' del', r'.edit = .edit prio g ins' del' ∧
      ins'.Is (((unionAt l (p ++ [r.revId])).filter (fun c => m c == 0)).map (insMark r.revId)) ∧
      del'.Is (((unionAt l (p ++ [r.revId])).filter (fun c => m c == 0)).map (delMark r.revId))
  | .undo t x => ∃ x', r'.edit = .undo (t.filter (fun g => !gcs.contains g)) x' ∧
      x'.Is (keep ((unionAt l p).map m) x.counts)

/-- What `gc` makes of a list of revisions. -/
def GcTail (l : List (Chr α)) (m : Chr α → Nat) (retain : List RevId) (gcs : List Nat) :
    List RevId → List Revision → List Revision → Prop
  | _, [], out => out = []
  | p, r :: post, out =>
    if keptRev retain gcs r then
      ∃ r' out', out = r' :: out' ∧ GcRev l m gcs p r r' ∧ GcTail l m retain gcs (p ++ [r.revId]) post out'
    else GcTail l m retain gcs (p ++ [r.revId]) post out

/-- The second loop of `gc`. -/
theorem RevsOk.gcRevs (h : RevsOk l revs) (retain : List RevId) (gcs : List Nat) (m : Chr α → Nat)
    {S : Subset} (hS : S.Is (l.map m)) :
    ∀ (post pre : List Revision), revs = pre ++ post →
    ∃ out S', post.reverse.foldlM (Engine.gcRevStep retain gcs) ([], S) = some (out, S') ∧
      GcTail l m retain gcs (ids pre) post out ∧ S'.Is ((unionAt l (ids pre)).map m) := by
  intro post
  induction post with
  | nil =>
    intro pre hs
    rw [List.append_nil] at hs
    exact ⟨[], S, rfl, rfl, by rw [← hs, h.unionAt_all]; exact hS⟩
  | cons r post ih =>
    intro pre hs
    obtain ⟨out, S1, a1, a2, a3⟩ := ih (pre ++ [r]) (by simp [hs])
    have hids : ids (pre ++ [r]) = ids pre ++ [r.revId] := by simp
    rw [hids] at a2 a3
    rw [List.reverse_cons, List.foldlM_append, a1]
    simp only [Option.bind_eq_bind, Option.bind_some]
    have hone : ∀ st v, Engine.gcRevStep retain gcs st r = some v →
        List.foldlM (Engine.gcRevStep retain gcs) st [r] = some v := by
      intro st v hv; simp [hv]
    have hr := h.rev pre r post hs
    unfold RevOk at hr
    cases he : r.edit with
    | edit p g ins del =>
      rw [he] at hr
      have hg : r.group? = some g := by simp [Revision.group?, he]
      obtain ⟨S2, b1, b2⟩ := a3.shrink_opt hr.1 (by simp)
      rw [keep_map, RevsOk.unionAt_snoc (h.notMem hs)] at b2
      have hkept : keptRev retain gcs r = (retain.contains r.revId || !gcs.contains g) := by
        unfold keptRev goneLab; rw [hg]; simp
      obtain ⟨i', c1, c2⟩ := hr.1.shrink_opt a3 (by simp)
      obtain ⟨d', c3, c4⟩ := hr.2.shrink_opt a3 (by simp)
      rw [keep_map] at c2 c4
      by_cases hk : keptRev retain gcs r = true
      · have hk' := hk
        rw [hkept] at hk'
        refine ⟨⟨r.revId, r.maxUndoSoFar, .edit p g i' d'⟩ :: out, S2, ?_, ?_, b2⟩
        · have hr0 : r = ⟨r.revId, r.maxUndoSoFar, .edit p g ins del⟩ := by
            cases r; simp only at he; rw [he]
          have key2 : ∀ nS : Subset, (if S1.isEmpty = true then some (r :: out, nS)
              else (ins.transformShrink S1).bind fun i => (del.transformShrink S1).bind fun d =>
                some (⟨r.revId, r.maxUndoSoFar, .edit p g i d⟩ :: out, nS)) =
              some (⟨r.revId, r.maxUndoSoFar, .edit p g i' d'⟩ :: out, nS) := by
            intro nS
            by_cases hem : S1.isEmpty = true
            · rw [if_pos hem] at c1 c3 ⊢
              cases c1; cases c3
              rw [← hr0]
            · rw [if_neg hem] at c1 c3 ⊢
              rw [c1, c3]; rfl
          apply hone
          simp only [Engine.gcRevStep, he, Option.bind_eq_bind, Option.pure_def]
          rw [opt_ite_bind, b1]
          simp only [Option.bind_some]
          rw [if_pos hk']
          exact key2 _
        · unfold GcTail
          rw [if_pos hk]
          refine ⟨_, out, rfl, ⟨rfl, rfl, ?_⟩, a2⟩
          rw [he]
          exact ⟨i', d', rfl, c2, c4⟩
      · have hk' := hk
        rw [hkept] at hk'
        refine ⟨out, S2, ?_, ?_, b2⟩
        · apply hone
          simp only [Engine.gcRevStep, he, Option.bind_eq_bind, Option.pure_def]
          rw [opt_ite_bind, b1]
          simp only [Option.bind_some]
          rw [if_neg hk']
        · unfold GcTail
          rw [if_neg hk]
          exact a2
    | undo t x =>
      rw [he] at hr
      have hg : r.group? = none := by simp [Revision.group?, he]
      have hu := h.unionAt_undo hs hg
      rw [hu] at a3
      have hkept : keptRev retain gcs r = retain.contains r.revId := by
        unfold keptRev; rw [hg]
      have hx : x.Is x.counts := ⟨hr.1, rfl⟩
      obtain ⟨x', c1, c2⟩ := hx.shrink_opt a3 (by simp [hr.2])
      by_cases hk : keptRev retain gcs r = true
      · have hk' := hk
        rw [hkept] at hk'
        refine ⟨⟨r.revId, r.maxUndoSoFar, .undo (t.filter (fun g => !gcs.contains g)) x'⟩ :: out, S1, ?_, ?_, a3⟩
        · apply hone
          simp only [Engine.gcRevStep, he, Option.bind_eq_bind, Option.pure_def]
          rw [if_pos hk']
          by_cases hem : S1.isEmpty = true
          · rw [if_pos hem] at c1 ⊢
            cases c1
            rfl
          · rw [if_neg hem] at c1 ⊢
            rw [c1]; rfl
        · unfold GcTail
          rw [if_pos hk]
          refine ⟨_, out, rfl, ⟨rfl, rfl, ?_⟩, a2⟩
          rw [he]
          exact ⟨x', rfl, c2⟩
      · have hk' := hk
        rw [hkept] at hk'
        refine ⟨out, S1, ?_, ?_, a3⟩
        · apply hone
          simp only [Engine.gcRevStep, he, Option.bind_eq_bind, Option.pure_def]
          rw [if_neg hk']
        · unfold GcTail
          rw [if_neg hk]
          exact a2


theorem GcRev.group {m : Chr α → Nat} {gcs : List Nat} {p : List RevId} {r r' : Revision}
    (h : GcRev l m gcs p r r') : r'.group? = r.group? := by
  obtain ⟨_, _, h⟩ := h
  unfold Revision.group?
  cases he : r.edit with
  | edit pr g i d => rw [he] at h; obtain ⟨_, _, h, _⟩ := h; rw [h]
  | undo t x => rw [he] at h; obtain ⟨_, h, _⟩ := h; rw [h]

variable {m : Chr α → Nat} {retain : List RevId} {gcs : List Nat}

theorem GcTail.ids : ∀ {post : List Revision} {p : List RevId} {out : List Revision},
    GcTail l m retain gcs p post out → Xi.ids out = Xi.ids (post.filter (keptRev retain gcs)) ∧
      out.map Revision.maxUndoSoFar = (post.filter (keptRev retain gcs)).map Revision.maxUndoSoFar ∧
      out.map Revision.group? = (post.filter (keptRev retain gcs)).map Revision.group? := by
  intro post
  induction post with
  | nil => intro p out h; rw [GcTail] at h; subst h; simp
  | cons r post ih =>
    intro p out h
    unfold GcTail at h
    split at h
    · rename_i hk
      obtain ⟨r', out', rfl, h1, h2⟩ := h
      obtain ⟨i1, i2, i3⟩ := ih h2
      simp [List.filter_cons, hk, i1, i2, i3, h1.1, h1.2.1, h1.group]
    · rename_i hk
      simpa [List.filter_cons, hk] using ih h

theorem GcTail.split : ∀ {post : List Revision} {p : List RevId} {pre' post' : List Revision},
    GcTail l m retain gcs p post (pre' ++ post') →
    ∃ pre1 post1, post = pre1 ++ post1 ∧ GcTail l m retain gcs p pre1 pre' ∧
      GcTail l m retain gcs (p ++ Xi.ids pre1) post1 post' := by
  intro post
  induction post with
  | nil =>
    intro p pre' post' h
    rw [GcTail] at h
    obtain ⟨rfl, rfl⟩ := List.append_eq_nil_iff.1 h
    exact ⟨[], [], rfl, rfl, rfl⟩
  | cons r post ih =>
    intro p pre' post' h
    unfold GcTail at h
    split at h
    · rename_i hk
      obtain ⟨r', out', ho, h1, h2⟩ := h
      cases pre' with
      | nil =>
        refine ⟨[], r :: post, rfl, rfl, ?_⟩
        simp only [ids_nil, List.append_nil]
        simp only [List.nil_append] at ho
        subst ho
        unfold GcTail
        rw [if_pos hk]
        exact ⟨r', out', rfl, h1, h2⟩
      | cons y pre' =>
        simp only [List.cons_append, List.cons.injEq] at ho
        obtain ⟨rfl, rfl⟩ := ho
        obtain ⟨pre1, post1, a1, a2, a3⟩ := ih h2
        refine ⟨r :: pre1, post1, by simp [a1], ?_, by simpa using a3⟩
        unfold GcTail
        rw [if_pos hk]
        exact ⟨y, pre', rfl, h1, a2⟩
    · rename_i hk
      obtain ⟨pre1, post1, a1, a2, a3⟩ := ih h
      refine ⟨r :: pre1, post1, by simp [a1], ?_, by simpa using a3⟩
      unfold GcTail
      rw [if_neg hk]
      exact a2

theorem GcTail.splitAt {post : List Revision} {p : List RevId} {pre' post' : List Revision} {r' : Revision}
    (h : GcTail l m retain gcs p post (pre' ++ r' :: post')) :
    ∃ pre1 r post1, post = pre1 ++ r :: post1 ∧ keptRev retain gcs r = true ∧
      Xi.ids pre' = Xi.ids (pre1.filter (keptRev retain gcs)) ∧ GcRev l m gcs (p ++ Xi.ids pre1) r r' := by
  obtain ⟨pre1, post1, rfl, a2, a3⟩ := h.split
  have : ∀ (post1 : List Revision) (p : List RevId), GcTail l m retain gcs p post1 (r' :: post') →
      ∃ pre2 r post2, post1 = pre2 ++ r :: post2 ∧ keptRev retain gcs r = true ∧
        pre2.filter (keptRev retain gcs) = [] ∧ GcRev l m gcs (p ++ Xi.ids pre2) r r' := by
    intro post1
    induction post1 with
    | nil => intro p h; simp [GcTail] at h
    | cons r post ih =>
      intro p h
      unfold GcTail at h
      split at h
      · rename_i hk
        obtain ⟨_, _, ho, h1, h2⟩ := h
        simp only [List.cons.injEq] at ho
        obtain ⟨rfl, rfl⟩ := ho
        exact ⟨[], r, post, rfl, hk, rfl, by simpa using h1⟩
      · rename_i hk
        obtain ⟨pre2, r2, post2, b1, b2, b3, b4⟩ := ih _ h
        exact ⟨r :: pre2, r2, post2, by simp [b1], b2, by simp [List.filter_cons, hk, b3], by simpa using b4⟩
  obtain ⟨pre2, r, post2, rfl, b2, b3, b4⟩ := this _ _ a3
  refine ⟨pre1 ++ pre2, r, post2, by simp, b2, ?_, by simpa using b4⟩
  rw [List.filter_append, b3, List.append_nil]
  exact a2.ids.1

end

/-- The labelled text after `gc`. -/
def gcList (retain : List RevId) (gcs G : List Nat) (revs : List Revision) (l : List (Chr α)) : List (Chr α) :=
  (l.filter (fun c => c.gm (goneLab retain gcs) G (ids revs) == 0)).map
    (Chr.restrict (fun a => !goneLab retain gcs a))

section
variable {e : Engine α} {l : List (Chr α)}

theorem mem_of_split_nodup {revs pre post pre2 post2 : List Revision} {r s : Revision}
    (h1 : revs = pre ++ r :: post) (h2 : s ∈ revs) (h3 : s.revId ∉ ids (pre ++ [r])) :
    ∃ p1 p2, revs = p1 ++ s :: p2 ∧ r ∈ p1 := by
  rw [h1, show pre ++ r :: post = (pre ++ [r]) ++ post by simp] at h2
  rcases List.mem_append.1 h2 with h | h
  · exact absurd (mem_ids.2 ⟨s, h, rfl⟩) h3
  · obtain ⟨x, y, rfl⟩ := List.append_of_mem h
    exact ⟨pre ++ r :: x, y, by simp [h1], by simp⟩

/-- The first undo back. -/
theorem hist_of_edits {revs : List Revision} (h : RevsOk l revs) (G : List Nat) :
    ∀ (post pre : List Revision) (E : List Nat) (tail : List Revision), revs = pre ++ post ++ tail →
    (∀ r ∈ post, r.group? ≠ none) →
    ListLe (cntMask l G (ids (pre ++ post))) E →
    (backTo true (E, G) post).2 = G ∧ ListLe (cntMask l G (ids pre)) (backTo true (E, G) post).1 := by
  intro post
  induction post with
  | nil => intro pre E tail hs _ hE; exact ⟨rfl, by simpa using hE⟩
  | cons r post ih =>
    intro pre E tail hs hed hE
    obtain ⟨i1, i2⟩ := ih (pre ++ [r]) E tail (by simp [hs]) (fun x hx => hed x (by simp [hx])) (by simpa using hE)
    rw [backTo_cons]
    have hs' : revs = pre ++ r :: (post ++ tail) := by simp [hs]
    have hr := h.rev _ _ _ hs'
    unfold RevOk at hr
    unfold backStep
    cases he : r.edit with
    | undo t x => exact absurd (by simp [Revision.group?, he]) (hed r (by simp))
    | edit p g ins del =>
      rw [he] at hr
      simp only
      rw [i1]
      have hb := h.back_le hs' (g := g) (by simp [Revision.group?, he]) G _
        (by rw [ids_append] at i2; exact i2)
      split
      · rename_i hG
        rw [if_pos hG] at hb
        rw [hr.1.2]
        exact ⟨rfl, hb⟩
      · rename_i hG
        rw [if_neg hG] at hb
        rw [hr.1.2, hr.2.2]
        exact ⟨rfl, hb.2⟩

theorem present_restrict_iff {q : Lab → Bool} {c : Chr α} {p p' : List RevId}
    (h1 : ∀ a, c.insBy = some a → q a = true → (a.id ∈ p' ↔ a.id ∈ p))
    (h2 : ∀ a, c.insBy = some a → q a = false → a.id ∈ p) :
    (c.restrict q).present p' = c.present p := by
  unfold present restrict
  cases hi : c.insBy with
  | none => rfl
  | some a =>
    by_cases hq : q a = true
    · have := h1 a hi hq
      simp only [Option.filter, hq]
      rw [Bool.eq_iff_iff]; simpa using this
    · have := h2 a hi (by simpa using hq)
      simp only [Option.filter, hq]
      simpa using this

/-- Garbage collection. -/
theorem Den.gc (h : Den e l) (gcs : List Nat) (hok : GcOk e gcs) :
    ∃ e' retain, e.gc gcs = some e' ∧ Den e' (gcList retain gcs e.undoneGroups e.revs l) ∧
      e'.text = e.text ∧ e'.undoneGroups = e.undoneGroups ∧ e'.session = e.session ∧
      (∀ r ∈ e'.revs, ∃ r0 ∈ e.revs, r0.revId = r.revId ∧ r0.group? = r.group?) ∧
      e'.revs.getLast?.map Revision.revId = e.revs.getLast?.map Revision.revId ∧
      retain = e.revs.getLast?.toList.map Revision.revId ∧
      ids e'.revs = ids (e.revs.filter (keptRev retain gcs)) := by
  obtain ⟨ipre, last, hl1, hl2⟩ := h.last
  have hret : e.revs.getLast?.toList.map Revision.revId = [last.revId] := by rw [hl2]; rfl
  generalize hG : e.undoneGroups = G
  generalize hq : goneLab [last.revId] gcs = q
  -- the empty subset
  have hfirst : ∃ S0, e.emptySubsetBeforeFirstRev = some S0 ∧
      S0.Is ((unionAt l (ids [])).map (gm q G (ids []))) := by
    cases hrevs : e.revs with
    | nil => exact absurd hrevs h.ne
    | cons r post =>
      have hr := h.revsOk.rev [] r post (by simp [hrevs])
      have hz := h.revsOk.insMask_zeros (pre := []) (r := r) (post := post) (by simp [hrevs])
      have hgm : ∀ c ∈ unionAt l (ids []), c.gm q G (ids []) = 0 := by
        intro c hc
        have hp := (List.mem_filter.1 hc).2
        unfold present at hp
        unfold gm cnt restrict
        cases hi : c.insBy with
        | none => simp
        | some a => rw [hi] at hp; simp at hp
      have hmap : (unionAt l (ids [])).map (gm q G (ids [])) = List.replicate (unionAt l (ids [])).length 0 := by
        rw [List.eq_replicate_iff]
        refine ⟨by simp, ?_⟩
        intro b hb
        obtain ⟨c, hc, rfl⟩ := List.mem_map.1 hb
        exact hgm c hc
      unfold RevOk at hr
      unfold Engine.emptySubsetBeforeFirstRev
      rw [hrevs, hmap]
      simp only [List.head?_cons, Option.bind_eq_bind, Option.bind_some]
      cases he : r.edit with
      | edit p g ins del =>
        rw [he] at hr
        simp only
        have : ins.count .zero = (unionAt l (ids [])).length := by
          have := hr.1.lenAfterDelete
          rw [hz] at this
          exact this
        rw [this]
        exact Subset.Is.new _
      | undo t x =>
        rw [he] at hr
        simp only
        have : x.count .all = (unionAt l (ids [])).length := by
          rw [← hr.2]; exact x.len_spec
        rw [this]
        exact Subset.Is.new _
  obtain ⟨S0, s1, s2⟩ := hfirst
  subst hq
  obtain ⟨S, t1, t2⟩ := h.revsOk.gcDels [last.revId] gcs G e.revs [] (by simp) S0 s2
  obtain ⟨out, S', u1, u2, u3⟩ := h.revsOk.gcRevs [last.revId] gcs (gm (goneLab [last.revId] gcs) G (ids e.revs)) t2
    e.revs [] (by simp)
  generalize hq : goneLab [last.revId] gcs = q at *
  generalize hm : gm q G (ids e.revs) = m at *
  -- a character that is collected is not visible
  have hmle : ∀ c : Chr α, m c ≤ c.cnt G (ids e.revs) := by
    intro c; rw [← hm]; have := gm_add q G (ids e.revs) c; omega
  have hmcnt : ∀ c : Chr α, m c = 0 → (c.restrict (fun a => !q a)).cnt G (ids e.revs) = c.cnt G (ids e.revs) := by
    intro c hc; rw [← hm] at hc; have := gm_add q G (ids e.revs) c; omega
  have hD := h.dels; have hT := h.text; have hB := h.tombs
  rw [hG] at hD hT hB
  -- texts
  have htx : ∃ D', e.gcTexts S = some (keep (flipMask (keep (l.map m) (l.map (cnt G (ids e.revs)))))
        (keep (l.map m) (l.map val)), D') ∧ D'.Is (keep (l.map m) (l.map (cnt G (ids e.revs)))) := by
    obtain ⟨D', hch1, hch2⟩ := hD.shrink_opt t2 (by simp)
    refine ⟨D', ?_, hch2⟩
    have htomb : keep (keep (flipMask (l.map (cnt G (ids e.revs)))) (l.map m)) e.tombstones =
        keep (flipMask (keep (l.map m) (l.map (cnt G (ids e.revs))))) (keep (l.map m) (l.map val)) := by
      rw [hB, flipMask_map, keep_map, keep_map, keep_map, keep_map, keep_map, flipMask_map, keep_map,
        List.filter_filter, List.filter_filter]
      congr 1
      apply List.filter_congr
      intro c _
      rw [Bool.and_comm]
    unfold Engine.gcTexts
    by_cases hem : S.isEmpty = true
    · rw [if_pos hem] at hch1 ⊢
      cases hch1
      have hz := t2.zeros_of_isEmpty hem
      have hk : ∀ {γ : Type} (xs : List γ), xs.length = l.length → keep (l.map m) xs = xs := by
        intro γ xs hx
        rw [hz, keep_zeros_of_length _ _ (by simp [hx])]
      rw [hk _ (by simp), hk _ (by simp), ← hB]
    · rw [if_neg hem] at hch1 ⊢
      obtain ⟨C, c1, c2⟩ := hD.complement
      obtain ⟨X, x1, x2⟩ := t2.shrink c2 (by simp)
      have hdel := x2.deleteFrom e.tombstones (by
        rw [hB, keep_length _ _ (by simp), keep_length _ _ (by simp)])
      simp only [c1, x1, hdel, hch1, htomb, Option.bind_eq_bind, Option.bind_some, Option.pure_def]
  obtain ⟨D', htx1, htx2⟩ := htx
  -- which revisions survive
  obtain ⟨gi1, gi2, gi3⟩ := u2.ids
  have hlab : ∀ c ∈ l, ∀ a, (c.insBy = some a ∨ a ∈ c.delBy) →
      ∃ r ∈ e.revs, r.revId = a.id ∧ r.group? = some a.group := by
    intro c hc a ha
    rcases ha with ha | ha
    · exact (h.revsOk.chr c hc).insLab a ha
    · exact (h.revsOk.chr c hc).delLab a ha
  have hkeptlab : ∀ (r : Revision) (a : Lab), r.revId = a.id → r.group? = some a.group →
      (keptRev [last.revId] gcs r = true ↔ (!q a) = true) := by
    intro r a h1 h2
    unfold keptRev
    rw [h2]
    simp only
    rw [h1, hq]
  -- labels in the kept part of a prefix
  have hmemk : ∀ (pre post : List Revision), e.revs = pre ++ post → ∀ c ∈ l, ∀ a,
      (c.insBy = some a ∨ a ∈ c.delBy) → (!q a) = true →
      (a.id ∈ ids (pre.filter (keptRev [last.revId] gcs)) ↔ a.id ∈ ids pre) := by
    intro pre post hs c hc a ha hqa
    obtain ⟨r, h1, h2, h3⟩ := hlab c hc a ha
    rw [mem_ids, mem_ids]
    constructor
    · rintro ⟨x, hx1, hx2⟩; exact ⟨x, (List.mem_filter.1 hx1).1, hx2⟩
    · rintro ⟨x, hx1, hx2⟩
      have : x = r := nodup_ids_inj h.revsOk.nodup (by rw [hs]; simp [hx1]) h1 (by rw [hx2, h2])
      subst this
      exact ⟨x, List.mem_filter.2 ⟨hx1, (hkeptlab x a h2 h3).2 hqa⟩, hx2⟩
  -- the union texts correspond
  have hunion : ∀ (pre post : List Revision) (r : Revision), e.revs = pre ++ r :: post →
      keptRev [last.revId] gcs r = true →
      unionAt (gcList [last.revId] gcs G e.revs l) (ids (pre.filter (keptRev [last.revId] gcs)) ++ [r.revId]) =
        ((unionAt l (ids pre ++ [r.revId])).filter (fun c => m c == 0)).map (Chr.restrict (fun a => !q a)) := by
    intro pre post r hs hk
    unfold gcList unionAt
    rw [hq, hm, List.filter_map, List.filter_filter, List.filter_filter]
    congr 1
    apply List.filter_congr
    intro c hc
    by_cases hmc : m c = 0
    · simp only [hmc, beq_self_eq_true, Bool.and_true, Bool.true_and, Function.comp]
      have hfil : ids (pre.filter (keptRev [last.revId] gcs)) ++ [r.revId] =
          ids ((pre ++ [r]).filter (keptRev [last.revId] gcs)) := by
        rw [List.filter_append, ids_append]; simp [hk]
      have hids : ids pre ++ [r.revId] = ids (pre ++ [r]) := by simp
      rw [hfil, hids]
      apply present_restrict_iff
      · intro a ha hqa
        exact hmemk (pre ++ [r]) post (by simp [hs]) c hc a (Or.inl ha) hqa
      · intro a ha hqa
        -- a surviving character of a collected edit
        simp only [Bool.not_eq_false'] at hqa
        apply Classical.byContradiction
        intro hn
        obtain ⟨ra, h1, h2, h3⟩ := hlab c hc a (Or.inl ha)
        obtain ⟨p1, p2, h4, h5⟩ := mem_of_split_nodup (pre2 := []) (post2 := []) hs h1 (by rw [h2]; exact hn)
        have hqa' := hqa
        rw [← hq] at hqa'
        unfold goneLab at hqa'
        simp only [Bool.and_eq_true, Bool.not_eq_true'] at hqa'
        have hp2 : p2 ≠ [] := by
          rintro rfl
          have : ra = last := by
            rw [hl1] at h4
            have := (List.append_inj' h4 rfl).2
            simp at this; exact this.symm
          have hh := hqa'.1
          rw [← h2, this] at hh
          simp at hh
        have hund : G.contains a.group = false := by
          apply Classical.byContradiction
          intro hc2
          simp only [Bool.not_eq_false] at hc2
          have : 1 ≤ m c := by
            rw [← hm]
            unfold gm cnt restrict
            have : a.group ∈ G := by simpa using hc2
            simp [ha, hqa, Option.filter, this]
          omega
        have hins := h.revsOk.rev p1 ra p2 h4
        unfold RevOk at hins
        cases hre : ra.edit with
        | undo t x => simp [Revision.group?, hre] at h3
        | edit p g ins del =>
          rw [hre] at hins
          have hg : g = a.group := by simpa [Revision.group?, hre] using h3
          have hne : ins.isEmpty = false := by
            rw [← Bool.not_eq_true, hins.1.isEmpty]
            intro hall
            have hmem : c ∈ unionAt l (ids p1 ++ [ra.revId]) := by
              refine List.mem_filter.2 ⟨hc, ?_⟩
              unfold present; rw [ha]; simp [h2]
            have := hall _ (List.mem_map_of_mem hmem)
            unfold insMark insertedBy at this
            rw [ha] at this
            simp [h2] at this
          have hkr := hk
          unfold keptRev at hkr
          cases hrg : r.group? with
          | none =>
            -- r is the last revision
            rw [hrg] at hkr
            simp at hkr
            have : r = last := nodup_ids_inj h.revsOk.nodup (by rw [hs]; simp) (by rw [hl1]; simp) hkr
            subst this
            have hp1 : r ∈ ipre := by
              have : ipre ++ [r] = p1 ++ ra :: p2 := by rw [← hl1, h4]
              rcases List.eq_nil_or_concat p2 with h0 | ⟨p3, y, h0⟩
              · exact absurd h0 hp2
              · have h6 : ipre ++ [r] = (p1 ++ ra :: p3) ++ [y] := by simp [this, h0]
                rw [(List.append_inj' h6 rfl).1]; simp [h5]
            have := h.revsOk.nodup
            rw [hl1, ids_append, List.nodup_append] at this
            exact this.2.2 _ (mem_ids.2 ⟨r, hp1, rfl⟩) _ (by simp) rfl
          | some g' =>
            rw [hrg] at hkr
            have hgcd := hok p1 ra p2 h4 hp2 p g ins del hre (by rw [hg]; exact hqa'.2)
              (by rw [hG, hg]; exact hund) hne r h5
            have hgcd : gcs.contains g' = true := by
              cases hre' : r.edit with
              | edit p2 g2 i2 d2 =>
                have h9 : g2 = g' := by simpa [Revision.group?, hre'] using hrg
                exact h9 ▸ hgcd _ _ _ _ hre'
              | undo t x => simp [Revision.group?, hre'] at hrg
            simp only [goneLab, hgcd, Bool.and_true, Bool.not_not] at hkr
            simp at hkr
            have : r = last := nodup_ids_inj h.revsOk.nodup (by rw [hs]; simp) (by rw [hl1]; simp) hkr
            subst this
            have hp1 : r ∈ ipre := by
              have : ipre ++ [r] = p1 ++ ra :: p2 := by rw [← hl1, h4]
              rcases List.eq_nil_or_concat p2 with h0 | ⟨p3, y, h0⟩
              · exact absurd h0 hp2
              · have h6 : ipre ++ [r] = (p1 ++ ra :: p3) ++ [y] := by simp [this, h0]
                rw [(List.append_inj' h6 rfl).1]; simp [h5]
            have := h.revsOk.nodup
            rw [hl1, ids_append, List.nodup_append] at this
            exact this.2.2 _ (mem_ids.2 ⟨r, hp1, rfl⟩) _ (by simp) rfl
    · have : (m c == 0) = false := by simpa using hmc
      simp [this]
  -- marks of kept revisions
  have hmarks : ∀ (r : Revision), r ∈ e.revs → keptRev [last.revId] gcs r = true → ∀ c ∈ l,
      (c.restrict (fun a => !q a)).insMark r.revId = c.insMark r.revId ∧
      (c.restrict (fun a => !q a)).delMark r.revId = c.delMark r.revId := by
    intro r hr hk c hc
    have hid : ∀ a, (c.insBy = some a ∨ a ∈ c.delBy) → a.id = r.revId → (!q a) = true := by
      intro a ha hia
      obtain ⟨ra, h1, h2, h3⟩ := hlab c hc a ha
      have : ra = r := nodup_ids_inj h.revsOk.nodup h1 hr (by rw [h2, hia])
      subst this
      exact (hkeptlab ra a h2 h3).1 hk
    constructor
    · unfold insMark insertedBy restrict
      cases hi : c.insBy with
      | none => rfl
      | some a =>
        by_cases hia : a.id = r.revId
        · simp [Option.filter, hid a (Or.inl hi) hia]
        · simp only [Option.filter]
          split <;> simp [hia]
    · unfold delMark deletedBy restrict
      simp only [List.any_filter]
      congr 2
      rw [Bool.eq_iff_iff, List.any_eq_true, List.any_eq_true]
      constructor
      · rintro ⟨d, h1, h2⟩; exact ⟨d, h1, by simp_all⟩
      · rintro ⟨d, h1, h2⟩
        have := hid d (Or.inr h1) (by simpa using h2)
        exact ⟨d, h1, by simp_all⟩
  have hlist : ∀ c' ∈ gcList [last.revId] gcs G e.revs l, ∃ c ∈ l, m c = 0 ∧ c' = c.restrict (fun a => !q a) := by
    intro c' hc'
    unfold gcList at hc'
    rw [hq, hm] at hc'
    obtain ⟨c, h1, rfl⟩ := List.mem_map.1 hc'
    have := List.mem_filter.1 h1
    exact ⟨c, this.1, by simpa using this.2, rfl⟩
  -- the log
  have hsub : ∀ (x : Revision), x ∈ e.revs → keptRev [last.revId] gcs x = true →
      ∃ x' ∈ out, x'.revId = x.revId ∧ x'.group? = x.group? := by
    have : ∀ (post : List Revision) (p : List RevId) (out : List Revision),
        GcTail l m [last.revId] gcs p post out → ∀ x ∈ post, keptRev [last.revId] gcs x = true →
        ∃ x' ∈ out, x'.revId = x.revId ∧ x'.group? = x.group? := by
      intro post
      induction post with
      | nil => simp
      | cons r post ih =>
        intro p out ht x hx hk
        unfold GcTail at ht
        rcases List.mem_cons.1 hx with rfl | hx
        · rw [if_pos hk] at ht
          obtain ⟨r', out', rfl, h1, _⟩ := ht
          exact ⟨r', by simp, h1.1, h1.group⟩
        · split at ht
          · obtain ⟨r', out', rfl, h1, h2⟩ := ht
            obtain ⟨x', h3, h4⟩ := ih _ _ h2 x hx hk
            exact ⟨x', by simp [h3], h4⟩
          · exact ih _ _ ht x hx hk
    exact this _ _ _ u2
  have hback : ∀ (x' : Revision), x' ∈ out → ∃ x ∈ e.revs, keptRev [last.revId] gcs x = true ∧
      x.revId = x'.revId ∧ x.group? = x'.group? ∧ x.maxUndoSoFar = x'.maxUndoSoFar := by
    intro x' hx'
    obtain ⟨a, b, rfl⟩ := List.append_of_mem hx'
    obtain ⟨pre1, r, post1, h1, h2, h3, h4⟩ := u2.splitAt
    exact ⟨r, by rw [h1]; simp, h2, h4.1.symm, h4.group.symm, h4.2.1.symm⟩
  have hk : RevsOk (gcList [last.revId] gcs G e.revs l) out := by
    refine ⟨?_, ?_, ?_⟩
    · rw [gi1]
      exact h.revsOk.nodup.sublist (List.filter_sublist.map _)
    · intro c' hc'
      obtain ⟨c, hc, hmc, rfl⟩ := hlist c' hc'
      have hck := h.revsOk.chr c hc
      refine ⟨?_, ?_, ?_, ?_⟩
      · intro a ha
        obtain ⟨h1, h2⟩ := restrict_insBy_some ha
        obtain ⟨r, h3, h4, h5⟩ := hlab c hc a (Or.inl h1)
        obtain ⟨r', h6, h7, h8⟩ := hsub r h3 ((hkeptlab r a h4 h5).2 h2)
        exact ⟨r', h6, by rw [h7, h4], by rw [h8, h5]⟩
      · intro d hd
        have hd := List.mem_filter.1 hd
        obtain ⟨r, h3, h4, h5⟩ := hlab c hc d (Or.inr hd.1)
        obtain ⟨r', h6, h7, h8⟩ := hsub r h3 ((hkeptlab r d h4 h5).2 hd.2)
        exact ⟨r', h6, by rw [h7, h4], by rw [h8, h5]⟩
      · exact hck.nodup.sublist (List.filter_sublist.map _)
      · intro pre' post' hs' d hd hdm
        have hd := List.mem_filter.1 hd
        rw [hs'] at u2
        obtain ⟨pre1, post1, h1, h2, h3⟩ := u2.split
        have hp' := h2.ids.1
        rw [hp', hmemk pre1 post1 h1 c hc d (Or.inr hd.1) hd.2] at hdm
        have hpres := hck.order pre1 post1 h1 d hd.1 hdm
        rw [hp']
        unfold present at hpres ⊢
        unfold restrict
        cases hi : c.insBy with
        | none => rfl
        | some a =>
          rw [hi] at hpres
          simp only [Option.filter]
          split
          · rfl
          · rename_i a' ha'
            split at ha'
            · rename_i hqa
              cases ha'
              simp only [List.contains_iff_mem] at hpres ⊢
              exact (hmemk pre1 post1 h1 c hc a (Or.inl hi) hqa).2 hpres
            · cases ha'
    · intro pre' r' post' hs'
      rw [hs'] at u2
      obtain ⟨pre1, r, post1, h1, h2, h3, h4⟩ := u2.splitAt
      rw [ids_nil, List.nil_append] at h4
      have hun := hunion pre1 post1 r h1 h2
      rw [h3]
      obtain ⟨g1, g2, g3⟩ := h4
      unfold RevOk
      cases hre : r.edit with
      | edit p g ins del =>
        rw [hre] at g3
        obtain ⟨i', d', k1, k2, k3⟩ := g3
        rw [k1]
        simp only
        rw [g1, hun, List.map_map, List.map_map]
        have hcl : ∀ c ∈ (unionAt l (ids pre1 ++ [r.revId])).filter (fun c => m c == 0), c ∈ l :=
          fun c hc => RevsOk.mem_of_unionAt (List.mem_filter.1 hc).1
        rw [List.map_congr_left (f := insMark r.revId ∘ restrict fun a => !q a) (g := insMark r.revId) (fun c hc => (hmarks r (by rw [h1]; simp) h2 c (hcl c hc)).1),
          List.map_congr_left (f := delMark r.revId ∘ restrict fun a => !q a) (g := delMark r.revId) (fun c hc => (hmarks r (by rw [h1]; simp) h2 c (hcl c hc)).2)]
        exact ⟨k2, k3⟩
      | undo t x =>
        rw [hre] at g3
        obtain ⟨x', k1, k2⟩ := g3
        rw [k1]
        simp only
        refine ⟨k2.1, ?_⟩
        have hrg : r.group? = none := by simp [Revision.group?, hre]
        have hrv := h.revsOk.rev pre1 r post1 h1
        unfold RevOk at hrv
        rw [hre] at hrv
        rw [k2.2, keep_length _ _ (by simp [hrv.2]), zeros_map]
        have e2 : unionAt (gcList [last.revId] gcs G e.revs l) (ids (pre1.filter (keptRev [last.revId] gcs))) =
            unionAt (gcList [last.revId] gcs G e.revs l)
              (ids (pre1.filter (keptRev [last.revId] gcs)) ++ [r.revId]) := by
          unfold unionAt
          apply List.filter_congr
          intro c' hc'
          obtain ⟨c, hc, hmc, rfl⟩ := hlist c' hc'
          unfold present
          cases hi : (c.restrict (fun a => !q a)).insBy with
          | none => rfl
          | some a =>
            obtain ⟨h5, h6⟩ := restrict_insBy_some hi
            have : a.id ≠ r.revId := by
              intro hia
              have := h.revsOk.lab_group h1 (hlab c hc a (Or.inl h5)) hia
              rw [hrg] at this; cases this
            simp [this]
        rw [e2, hun, List.length_map, h.revsOk.unionAt_undo h1 hrg]
  -- counts
  have hcntk : ∀ c ∈ l, ∀ G', (c.restrict (fun a => !q a)).cnt G' (ids out) =
      (c.restrict (fun a => !q a)).cnt G' (ids e.revs) := by
    intro c hc G'
    unfold cnt
    congr 1
    apply List.countP_congr
    intro d hd
    have hd := List.mem_filter.1 hd
    rw [gi1]
    have := hmemk e.revs [] (by simp) c hc d (Or.inr hd.1) hd.2
    simp only [Bool.and_eq_true, List.contains_iff_mem]
    rw [this]
  have hDl : (gcList [last.revId] gcs G e.revs l).map (cnt G (ids out)) =
      keep (l.map m) (l.map (cnt G (ids e.revs))) := by
    rw [keep_map]
    unfold gcList
    rw [hq, hm, List.map_map]
    apply List.map_congr_left
    intro c hc
    have hc := List.mem_filter.1 hc
    simp only [Function.comp]
    rw [hcntk c hc.1, hmcnt c (by simpa using hc.2)]
  have hVl : (gcList [last.revId] gcs G e.revs l).map val = keep (l.map m) (l.map val) := by
    rw [keep_map]
    unfold gcList
    rw [hq, hm, List.map_map]
    rfl
  have htext : e.text = keep (keep (l.map m) (l.map (cnt G (ids e.revs)))) (keep (l.map m) (l.map val)) := by
    rw [hT, keep_map, keep_map, keep_map, keep_map, List.filter_filter]
    congr 1
    apply List.filter_congr
    intro c _
    have := hmle c
    by_cases h0 : c.cnt G (ids e.revs) = 0
    · have : m c = 0 := by omega
      simp [h0, this]
    · simp [h0]
  -- the last revision
  have hlastk : keptRev [last.revId] gcs last = true := by
    unfold keptRev goneLab
    split <;> simp
  have hout : ∃ opre olast, out = opre ++ [olast] ∧ GcRev l m gcs (ids ipre) last olast ∧
      ids opre = ids (ipre.filter (keptRev [last.revId] gcs)) := by
    have hne : out ≠ [] := by
      obtain ⟨x', h1, _⟩ := hsub last (by rw [hl1]; simp) hlastk
      intro h0; rw [h0] at h1; simp at h1
    rcases List.eq_nil_or_concat out with h0 | ⟨opre, olast, h0⟩
    · exact absurd h0 hne
    · rw [List.concat_eq_append] at h0
      refine ⟨opre, olast, h0, ?_⟩
      rw [h0] at u2
      obtain ⟨pre1, r, post1, h1, h2, h3, h4⟩ := u2.splitAt
      have hidl : ids out = ids (ipre.filter (keptRev [last.revId] gcs)) ++ [last.revId] := by
        rw [gi1, hl1, List.filter_append, ids_append]; simp [hlastk]
      rw [h0, ids_append] at hidl
      have hlst := (List.append_inj' hidl rfl).2
      have hlst' : olast.revId = last.revId := by simpa using hlst
      have : r = last := nodup_ids_inj h.revsOk.nodup (by rw [h1]; simp) (by rw [hl1]; simp)
        (by rw [← h4.1, hlst'])
      subst this
      have hpre : pre1 = ipre := by
        have hnd := h.revsOk.nodup
        have h6 : ipre ++ [r] = pre1 ++ r :: post1 := by rw [← hl1, h1]
        rcases List.eq_nil_or_concat post1 with h7 | ⟨p3, y, h7⟩
        · subst h7; exact (List.append_inj' h6 rfl).1.symm
        · exfalso
          have h8 : ipre ++ [r] = (pre1 ++ r :: p3) ++ [y] := by simp [h6, h7]
          have h9 := (List.append_inj' h8 rfl).1
          rw [hl1, ids_append, List.nodup_append] at hnd
          exact hnd.2.2 r.revId (by rw [h9]; simp) r.revId (by simp) rfl
      subst hpre
      rw [ids_nil, List.nil_append] at h4
      exact ⟨h4, h3⟩
  obtain ⟨opre, olast, ho1, ho2, ho3⟩ := hout
  have hopre_edit : ∀ x ∈ opre, x.group? ≠ none := by
    intro x hx
    obtain ⟨y, h1, h2, h3, h4, _⟩ := hback x (by rw [ho1]; simp [hx])
    intro hn
    rw [hn] at h4
    unfold keptRev at h2
    rw [h4] at h2
    simp at h2
    have h5 := hk.nodup
    rw [ho1, ids_append, List.nodup_append] at h5
    exact h5.2.2 x.revId (mem_ids.2 ⟨x, hx, rfl⟩) olast.revId (by simp) (by rw [← h3, h2, ho2.1])
  refine ⟨{ e with
      tombstones := keep (flipMask (keep (l.map m) (l.map (cnt G (ids e.revs))))) (keep (l.map m) (l.map val))
      deletesFromUnion := D'
      revs := out }, [last.revId], ?_, ?_, rfl, hG, rfl, ?_, ?_, hret.symm, gi1⟩
  · simp only [Engine.gc, s1, hret, hG, t1, u1, htx1, Option.bind_eq_bind, Option.bind_some, Option.pure_def]
  · refine ⟨hk, ?_, ?_, ?_, ?_, ?_, ?_, ?_, ?_⟩
    · simp only; rw [ho1]; simp
    · intro r' hr' hs
      obtain ⟨x, h1, h2, h3, _⟩ := hback r' hr'
      simp only at hs ⊢
      rw [← h3] at hs ⊢
      exact h.fresh x h1 hs
    · simp only
      rw [gi2]
      exact h.maxSorted.sublist (List.filter_sublist.map _)
    · intro r' hr' g hg
      obtain ⟨x, h1, h2, h3, h4, h5⟩ := hback r' hr'
      rw [← h5]
      exact h.maxGroup x h1 g (by rw [h4, hg])
    · simp only; rw [hG, hDl]; exact htx2
    · simp only; rw [hG, hDl, hVl, htext]
    · simp only; rw [hG, hDl, hVl]
    · intro pre' post' hs'
      simp only at hs' ⊢
      rw [hG]
      rcases List.eq_nil_or_concat post' with rfl | ⟨post'', y, rfl⟩
      · rw [List.append_nil] at hs'
        rw [← hs', backTo_nil, hk.cntMask_all]
        exact ListLe.refl _
      · rw [List.concat_eq_append] at hs' ⊢
        have h6 : opre ++ [olast] = (pre' ++ post'') ++ [y] := by rw [← ho1, hs']; simp
        obtain ⟨h7, h8⟩ := List.append_inj' h6 rfl
        simp only [List.cons.injEq, and_true] at h8
        subst h8
        cases hog : olast.group? with
        | some g =>
          have := hist_of_edits hk G (post'' ++ [olast]) pre' _ [] (by simp [hs']) (by
            intro x hx
            rcases List.mem_append.1 hx with hx | hx
            · exact hopre_edit x (by rw [h7]; simp [hx])
            · simp at hx; rw [hx, hog]; simp) (by
              rw [← hs', hk.cntMask_all]; exact ListLe.refl _)
          rw [this.1]
          exact this.2
        | none =>
          rw [backTo_snoc]
          -- the undo of the last revision
          obtain ⟨v1, v2, v3⟩ := ho2
          cases hle : last.edit with
          | edit p g i d =>
            rw [hle] at v3
            obtain ⟨_, _, v4, _⟩ := v3
            simp [Revision.group?, v4] at hog
          | undo t x =>
            rw [hle] at v3
            obtain ⟨x', v4, v5⟩ := v3
            have hlg : last.group? = none := by simp [Revision.group?, hle]
            have hbs : backStep true ((gcList [last.revId] gcs G e.revs l).map (cnt G (ids out)), G) olast =
                (keep (l.map m) (List.zipWith (· ^^^ ·) (l.map (cnt G (ids e.revs))) x.counts),
                  symDiff G (t.filter (fun g => !gcs.contains g))) := by
              unfold backStep
              rw [v4]
              simp only [if_true]
              rw [hDl, v5.2]
              have hun : unionAt l (ids ipre) = l := by
                rw [← h.revsOk.unionAt_undo (pre := ipre) (post := []) (by simp [hl1]) hlg]
                have : ids ipre ++ [last.revId] = ids e.revs := by rw [hl1]; simp
                rw [this, h.revsOk.unionAt_all]
              have hrv := h.revsOk.rev ipre last [] (by simp [hl1])
              unfold RevOk at hrv
              rw [hle] at hrv
              rw [hun] at hrv ⊢
              rw [keep_zipWith _ _ _ _ (by simp) (by simp [hrv.2])]
            rw [hbs]
            have hh := h.hist ipre [last] (by rw [hl1])
            rw [hG] at hh
            have hbl : backTo true (l.map (cnt G (ids e.revs)), G) [last] =
                (List.zipWith (· ^^^ ·) (l.map (cnt G (ids e.revs))) x.counts, symDiff G t) := by
              rw [backTo_cons, backTo_nil]
              unfold backStep; rw [hle]; simp
            rw [hbl] at hh
            have hle2 : ListLe (cntMask (gcList [last.revId] gcs G e.revs l)
                (symDiff G (t.filter (fun g => !gcs.contains g))) (ids opre))
                (keep (l.map m) (List.zipWith (· ^^^ ·) (l.map (cnt G (ids e.revs))) x.counts)) := by
              refine ListLe.trans ?_ (ListLe.keep _ hh)
              have hun : unionAt l (ids ipre) = l := by
                rw [← h.revsOk.unionAt_undo (pre := ipre) (post := []) (by simp [hl1]) hlg]
                have : ids ipre ++ [last.revId] = ids e.revs := by rw [hl1]; simp
                rw [this, h.revsOk.unionAt_all]
              have hun' : unionAt (gcList [last.revId] gcs G e.revs l) (ids opre) =
                  gcList [last.revId] gcs G e.revs l := by
                rw [← hk.unionAt_undo (pre := opre) (post := []) (by simp [ho1]) hog]
                have : ids opre ++ [olast.revId] = ids out := by rw [ho1]; simp
                rw [this, hk.unionAt_all]
              rw [cntMask, cntMask, hun, hun', keep_map]
              unfold gcList
              rw [hq, hm, List.map_map]
              apply ListLe.map
              intro c hc
              have hc := (List.mem_filter.1 hc).1
              simp only [Function.comp]
              -- kept labels are not in collected groups
              have hgrp : ∀ a, (c.insBy = some a ∨ a ∈ c.delBy) → (!q a) = true →
                  (symDiff G (t.filter (fun g => !gcs.contains g))).contains a.group =
                    (symDiff G t).contains a.group := by
                intro a ha hqa
                have hng : gcs.contains a.group = false := by
                  rw [← hq] at hqa
                  unfold goneLab at hqa
                  obtain ⟨ra, h1, h2, h3⟩ := hlab c hc a ha
                  have hne : a.id ≠ last.revId := by
                    intro hia
                    have : ra = last := nodup_ids_inj h.revsOk.nodup h1 (by rw [hl1]; simp) (by rw [h2, hia])
                    rw [this, hlg] at h3; cases h3
                  simpa [hne] using hqa
                rw [Bool.eq_iff_iff, List.contains_iff_mem, List.contains_iff_mem, mem_symDiff, mem_symDiff]
                simp only [List.mem_filter, hng, Bool.not_false, and_true]
              unfold cnt restrict
              apply Nat.add_le_add
              · cases hi : c.insBy with
                | none => simp
                | some a =>
                  simp only [Option.filter]
                  split
                  · simp
                  · rename_i a' ha'
                    split at ha'
                    · rename_i hqa
                      cases ha'
                      rw [hgrp a (Or.inl hi) hqa]
                      exact Nat.le_refl _
                    · cases ha'
              · rw [List.countP_filter]
                apply List.countP_mono_left
                intro d hd hx
                simp only [Bool.and_eq_true, Bool.not_eq_true', List.contains_iff_mem] at hx ⊢
                obtain ⟨⟨h1, h2⟩, h3⟩ := hx
                have h3' : (!q d) = true := by simpa using h3
                rw [hgrp d (Or.inr hd) h3'] at h2
                refine ⟨?_, h2⟩
                rw [ho3] at h1
                exact (hmemk ipre [last] hl1 c hc d (Or.inr hd) h3').1 h1
            rw [h7] at hle2
            have := hist_of_edits hk (symDiff G (t.filter (fun g => !gcs.contains g))) post'' pre'
              (keep (l.map m) (List.zipWith (· ^^^ ·) (l.map (cnt G (ids e.revs))) x.counts)) [olast]
              (by rw [hs']; simp)
              (fun x hx => hopre_edit x (by rw [h7]; simp [hx]))
              (by rw [← h7] at hle2 ⊢; exact hle2)
            rw [this.1]
            exact this.2
  · intro r hr
    obtain ⟨x, h1, _, h3, h4, _⟩ := hback r hr
    exact ⟨x, h1, h3, h4⟩
  · simp only
    rw [ho1, hl2]
    simp [ho2.1]

end

end Xi
