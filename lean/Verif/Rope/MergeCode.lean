import Verif.Rope.MergeCells
import Verif.Rope.MergeDelta

/-!
# `rearrange`, `compute_deltas` and `compute_transforms` on a labelled document
-/

namespace Xi

variable {α : Type}

open Chr

/-- Everything about a revision except its subsets. -/
def Revision.info (r : Revision) : RevId × Nat × Option (Nat × Nat) :=
  (r.revId, r.maxUndoSoFar, match r.edit with
    | .edit p g _ _ => some (p, g)
    | .undo _ _ => none)

/-- The revisions `revs`, all edits, are described by `Z` when they come after
the edits `X`. -/
def Hist (Z : List (Chr α)) (X : List RevId) (revs : List Revision) : Prop :=
  ∀ pre r post, revs = pre ++ r :: post →
    (∃ p g i d, r.edit = .edit p g i d) ∧ RevOk Z (X ++ ids pre) r ∧
    ∀ c ∈ Z, c.deletedBy r.revId = true → c.present (X ++ ids pre) = true

theorem Hist.congr {Z : List (Chr α)} {X Y : List RevId} {revs : List Revision} (h : Hist Z X revs)
    (he : ∀ x, x ∈ X ↔ x ∈ Y) : Hist Z Y revs := by
  intro pre r post hs
  obtain ⟨h1, h2, h3⟩ := h pre r post hs
  have he' : ∀ x, x ∈ X ++ ids pre ↔ x ∈ Y ++ ids pre := by intro x; simp [he]
  refine ⟨h1, revOk_congr he' h2, ?_⟩
  intro c hc hd
  rw [← present_congr he']; exact h3 c hc hd

theorem Hist.nil (Z : List (Chr α)) (X) : Hist Z X [] := by
  intro pre r post hs; simp at hs

theorem Hist.cons {Z : List (Chr α)} {X : List RevId} {r : Revision} {revs : List Revision}
    (h1 : ∃ p g i d, r.edit = .edit p g i d) (h2 : RevOk Z X r)
    (h3 : ∀ c ∈ Z, c.deletedBy r.revId = true → c.present X = true)
    (h : Hist Z (X ++ [r.revId]) revs) : Hist Z X (r :: revs) := by
  intro pre r' post hs
  cases pre with
  | nil =>
    simp only [List.nil_append, List.cons.injEq] at hs
    obtain ⟨rfl, _⟩ := hs
    simpa using ⟨h1, h2, h3⟩
  | cons x pre =>
    simp only [List.cons_append, List.cons.injEq] at hs
    obtain ⟨rfl, hs⟩ := hs
    have := h pre r' post hs
    simpa using this

theorem Hist.tail {Z : List (Chr α)} {X : List RevId} {r : Revision} {revs : List Revision}
    (h : Hist Z X (r :: revs)) : Hist Z (X ++ [r.revId]) revs := by
  intro pre r' post hs
  have := h (r :: pre) r' post (by simp [hs])
  simpa using this

/-- Marks what is not there yet after the edits `S`. -/
def newMark (S : List RevId) (c : Chr α) : Nat := if c.present S then 0 else 1

theorem newMark_eq_zero {S : List RevId} {c : Chr α} : newMark S c = 0 ↔ c.present S = true := by
  unfold newMark; split <;> simp_all

theorem filter_newMark (L : List (Chr α)) (S) : L.filter (fun c => newMark S c == 0) = unionAt L S := by
  unfold unionAt
  apply List.filter_congr
  intro c _
  unfold newMark
  split <;> simp_all

theorem present_snoc_iff (P : List RevId) (r : RevId) (c : Chr α) :
    c.present (P ++ [r]) = (c.present P || c.insertedBy r) := by
  rw [present_append_iff]; simp

theorem insMark_present {P : List RevId} {r : RevId} (hr : r ∉ P) {c : Chr α} (hc : c.present P = true) :
    c.insMark r = 0 := c.insMark_eq_zero_of_present hr hc

theorem insMark_of (r : RevId) (c : Chr α) : c.insMark r = if c.insertedBy r then 1 else 0 := rfl

/-- Marking one revision more. -/
theorem mark_back (L : List (Chr α)) {P : List RevId} {r : RevId} (hr : r ∉ P) :
    unionMask (L.map (newMark (P ++ [r]))) ((unionAt L (P ++ [r])).map (insMark r)) = L.map (newMark P) := by
  rw [← filter_newMark, unionMask_map]
  apply List.map_congr_left
  intro c _
  by_cases hP : c.present P = true
  · have := insMark_present hr hP
    simp [newMark, present_snoc_iff, hP, this]
  · by_cases hi : c.insertedBy r = true <;> simp [newMark, present_snoc_iff, hP, hi, insMark_of]

/-! ### `rearrange` -/

theorem rearrange_fold {Z : List (Chr α)} {X C : List RevId} : ∀ (post : List Revision) (P : List RevId),
    Hist Z P post → (P ++ ids post).Nodup → (∀ x ∈ C, x ∈ P ∨ x ∈ ids post) →
    ∀ s0 : Subset, s0.Is ((unionAt Z (P ++ ids post)).map (fun _ => 0)) →
    ∃ out s, post.reverse.foldlM (rearrangeStep C) ([], s0) = some (out, s) ∧
      s.Is ((unionAt Z (P ++ C)).map (newMark P)) ∧ Hist Z (P ++ C) out ∧
      out.map Revision.info = (post.filter (fun r => !C.contains r.revId)).map Revision.info := by
  intro post
  induction post with
  | nil =>
    intro P _ _ hC s0 hs0
    refine ⟨[], s0, rfl, ?_, Hist.nil _ _, rfl⟩
    have : ∀ x, x ∈ P ++ ids [] ↔ x ∈ P ++ C := by
      intro x; simp only [ids_nil, List.append_nil, List.mem_append]
      constructor
      · exact Or.inl
      · rintro (h | h)
        · exact h
        · simpa using hC x h
    rw [unionAt_congr this] at hs0
    have e : (unionAt Z (P ++ C)).map (newMark P) = (unionAt Z (P ++ C)).map (fun _ => 0) := by
      rw [← unionAt_congr this]
      apply List.map_congr_left
      intro c hc
      rw [newMark_eq_zero]
      have := (List.mem_filter.1 hc).2
      simpa using this
    rw [e]; exact hs0
  | cons r post ih =>
    intro P hH hn hC s0 hs0
    obtain ⟨⟨p, g, i, d, he⟩, hok, hdel⟩ := hH [] r post rfl
    simp only [ids_nil, List.append_nil] at hok hdel
    have hrP : r.revId ∉ P := by
      rw [List.nodup_append] at hn
      intro hm; exact hn.2.2 _ hm _ (by simp) rfl
    have hset : ∀ x, x ∈ P ++ ids (r :: post) ↔ x ∈ P ++ [r.revId] ++ ids post := by intro x; simp
    obtain ⟨out, s, a1, a2, a3, a4⟩ := ih (P ++ [r.revId]) hH.tail (by simpa using hn)
      (by intro x hx; have := hC x hx; simp at this ⊢; grind) s0 (by rw [← unionAt_congr hset]; exact hs0)
    unfold RevOk at hok
    rw [he] at hok
    simp only at hok
    rw [List.reverse_cons, List.foldlM_append, a1]
    simp only [Option.bind_eq_bind, Option.bind_some, List.foldlM_cons, List.foldlM_nil]
    -- the chars known after `r`
    have hsub : unionAt (unionAt Z (P ++ [r.revId] ++ C)) (P ++ [r.revId]) = unionAt Z (P ++ [r.revId]) :=
      unionAt_unionAt (by intro x hx; simp at hx ⊢; grind) Z
    have hz : ((unionAt Z (P ++ [r.revId])).map (insMark r.revId)).length =
        zeros ((unionAt Z (P ++ [r.revId] ++ C)).map (newMark (P ++ [r.revId]))) := by
      rw [zeros_map, filter_newMark, hsub]; simp
    have hzd : ((unionAt Z (P ++ [r.revId])).map (delMark r.revId)).length =
        zeros ((unionAt Z (P ++ [r.revId] ++ C)).map (newMark (P ++ [r.revId]))) := by
      rw [← hz]; simp
    unfold rearrangeStep
    rw [he]
    simp only
    by_cases hcon : C.contains r.revId
    · rw [if_pos hcon]
      obtain ⟨s', b1, b2⟩ := hok.1.transUnion a2 hz
      have hC' : r.revId ∈ C := by simpa using hcon
      have hset2 : ∀ x, x ∈ P ++ [r.revId] ++ C ↔ x ∈ P ++ C := by
        intro x; simp only [List.mem_append, List.mem_singleton]
        constructor
        · rintro ((h | rfl) | h) <;> simp_all
        · rintro (h | h) <;> simp_all
      refine ⟨out, s', by simp [b1], ?_, a3.congr hset2, ?_⟩
      · rw [← hsub, mark_back _ hrP, unionAt_congr hset2] at b2
        exact b2
      · rw [a4, List.filter_cons, if_neg (by simpa using hcon)]
    · rw [if_neg hcon]
      have hrC : r.revId ∉ C := by simpa using hcon
      obtain ⟨ins, b1, b2⟩ := hok.1.expand a2 hz
      obtain ⟨dels, c1, c2⟩ := hok.2.expand a2 hzd
      have e1 : expandMask ((unionAt Z (P ++ [r.revId] ++ C)).map (newMark (P ++ [r.revId])))
          ((unionAt Z (P ++ [r.revId])).map (insMark r.revId)) =
          (unionAt Z (P ++ [r.revId] ++ C)).map (insMark r.revId) := by
        rw [← hsub, ← filter_newMark _ (P ++ [r.revId]), expandMask_map]
        apply List.map_congr_left
        intro c _
        split
        · rfl
        · rename_i h
          rw [newMark_eq_zero, present_snoc_iff] at h
          simp only [Bool.or_eq_true, not_or, Bool.not_eq_true] at h
          simp [insMark_of, h.2]
      have e2 : expandMask ((unionAt Z (P ++ [r.revId] ++ C)).map (newMark (P ++ [r.revId])))
          ((unionAt Z (P ++ [r.revId])).map (delMark r.revId)) =
          (unionAt Z (P ++ [r.revId] ++ C)).map (delMark r.revId) := by
        rw [← hsub, ← filter_newMark _ (P ++ [r.revId]), expandMask_map]
        apply List.map_congr_left
        intro c hc
        split
        · rfl
        · rename_i h
          rw [newMark_eq_zero, present_snoc_iff] at h
          unfold delMark
          rw [if_neg]
          intro hd
          simp [hdel c (RevsOk.mem_of_unionAt hc) hd] at h
      rw [e1] at b2
      rw [e2] at c2
      obtain ⟨s', d1, d2⟩ := a2.shrink b2 (by simp)
      have hfil : (unionAt Z (P ++ [r.revId] ++ C)).filter (fun c => c.insMark r.revId == 0) = unionAt Z (P ++ C) := by
        rw [unionAt_congr (T := P ++ C ++ [r.revId]) (by intro x; simp; grind)]
        exact RevsOk.unionAt_snoc (by simp [hrP, hrC])
      refine ⟨_, s', by simp [b1, c1, d1]; rfl, ?_, ?_, ?_⟩
      · rw [keep_map, hfil] at d2
        have : (unionAt Z (P ++ C)).map (newMark (P ++ [r.revId])) = (unionAt Z (P ++ C)).map (newMark P) := by
          apply List.map_congr_left
          intro c hc
          have : c.insertedBy r.revId = false := by
            have := insMark_present (P := P ++ C) (r := r.revId) (by simp [hrP, hrC]) (List.mem_filter.1 hc).2
            rw [insMark_of] at this
            simpa using this
          simp [newMark, present_snoc_iff, this]
        rw [this] at d2
        exact d2
      · refine Hist.cons ⟨_, _, _, _, rfl⟩ ?_ ?_ ?_
        · unfold RevOk
          simp only
          rw [unionAt_congr (S := P ++ C ++ [r.revId]) (T := P ++ [r.revId] ++ C) (by intro x; simp; grind)]
          exact ⟨b2, c2⟩
        · intro c hc hd
          exact present_mono (by intro x hx; simp [hx]) (hdel c hc hd)
        · exact a3.congr (by intro x; simp; grind)
      · simp only [List.map_cons, a4]
        rw [List.filter_cons, if_pos (by simpa using hcon)]
        simp [Revision.info, he]

theorem rearrange_spec {Z : List (Chr α)} {X C : List RevId} {revs : List Revision} (h : Hist Z X revs)
    (hn : (X ++ ids revs).Nodup) (hC : ∀ x ∈ C, x ∈ ids revs) :
    ∃ out, rearrange revs C (unionAt Z (X ++ ids revs)).length = some out ∧ Hist Z (X ++ C) out ∧
      out.map Revision.info = (revs.filter (fun r => !C.contains r.revId)).map Revision.info := by
  obtain ⟨s, h1, h2⟩ := Subset.Is.new (unionAt Z (X ++ ids revs)).length
  obtain ⟨out, s', a1, a2, a3, a4⟩ := rearrange_fold (X := X) (C := C) revs X h hn (fun x hx => Or.inr (hC x hx)) s
    (by rw [List.map_const']; exact h2)
  exact ⟨out, by simp only [rearrange, h1, Option.bind_eq_bind, Option.bind_some, a1, Option.pure_def], a3, a4⟩

/-! ### `compute_deltas` -/

/-- What an operation of the other replica says, on the text that has the edits
`P`. -/
structure OpOk (Z : List (Chr α)) (P : List RevId) (op : DeltaOp α) : Prop where
  pos : op.inserts.Pos
  ins : op.inserts.Denotes (unionAt Z P).length ((unionAt Z (P ++ [op.revId])).map (insMark op.revId))
    (((unionAt Z (P ++ [op.revId])).filter (insertedBy op.revId)).map val)
  dels : op.deletes.Is ((unionAt Z (P ++ [op.revId])).map (delMark op.revId))
  delOk : ∀ c ∈ Z, c.deletedBy op.revId = true → c.present P = true

def DeltaOp.info (op : DeltaOp α) : RevId × Option (Nat × Nat) := (op.revId, some (op.priority, op.undoGroup))

def OpsOk (Z : List (Chr α)) (X : List RevId) (ops : List (DeltaOp α)) : Prop :=
  ∀ pre op post, ops = pre ++ op :: post → OpOk Z (X ++ pre.map DeltaOp.revId) op

theorem computeDeltas_fold {Z : List (Chr α)} {dels : Subset} {f : Chr α → Nat} {S : List RevId}
    (hd : dels.Is ((unionAt Z S).map f)) : ∀ (post : List Revision) (P : List RevId),
    Hist Z P post → (P ++ ids post).Nodup → (∀ x, x ∈ S ↔ x ∈ P ++ ids post) →
    ∀ s0 : Subset, s0.Is ((unionAt Z S).map (fun _ => 0)) →
    ∃ ops s, post.reverse.foldlM (computeDeltasStep (keep ((unionAt Z S).map f) ((unionAt Z S).map val))
        (keep (flipMask ((unionAt Z S).map f)) ((unionAt Z S).map val)) dels) ([], s0) = some (ops, s) ∧
      s.Is ((unionAt Z S).map (newMark P)) ∧ OpsOk Z P ops ∧
      ops.map DeltaOp.info = post.map (fun r => (r.info.1, r.info.2.2)) := by
  intro post
  induction post with
  | nil =>
    intro P _ _ hS s0 hs0
    refine ⟨[], s0, rfl, ?_, by intro pre op post h; simp at h, rfl⟩
    have e : (unionAt Z S).map (newMark P) = (unionAt Z S).map (fun _ => 0) := by
      apply List.map_congr_left
      intro c hc
      rw [newMark_eq_zero]
      have := (List.mem_filter.1 hc).2
      rw [present_congr hS] at this
      simpa using this
    rw [e]; exact hs0
  | cons r post ih =>
    intro P hH hn hS s0 hs0
    obtain ⟨⟨p, g, i, d, he⟩, hok, hdel⟩ := hH [] r post rfl
    simp only [ids_nil, List.append_nil] at hok hdel
    have hrP : r.revId ∉ P := by
      rw [List.nodup_append] at hn
      intro hm; exact hn.2.2 _ hm _ (by simp) rfl
    obtain ⟨ops, s, a1, a2, a3, a4⟩ := ih (P ++ [r.revId]) hH.tail (by simpa using hn)
      (by intro x; rw [hS]; simp) s0 hs0
    unfold RevOk at hok
    rw [he] at hok
    simp only at hok
    rw [List.reverse_cons, List.foldlM_append, a1]
    simp only [Option.bind_eq_bind, Option.bind_some, List.foldlM_cons, List.foldlM_nil]
    have hsub : unionAt (unionAt Z S) (P ++ [r.revId]) = unionAt Z (P ++ [r.revId]) :=
      unionAt_unionAt (by intro x hx; rw [hS]; simp at hx ⊢; grind) Z
    have hsub0 : unionAt (unionAt Z S) P = unionAt Z P :=
      unionAt_unionAt (by intro x hx; rw [hS]; simp [hx]) Z
    have hz : ((unionAt Z (P ++ [r.revId])).map (insMark r.revId)).length =
        zeros ((unionAt Z S).map (newMark (P ++ [r.revId]))) := by
      rw [zeros_map, filter_newMark, hsub]; simp
    obtain ⟨older, b1, b2⟩ := hok.1.transUnion a2 hz
    rw [← hsub, mark_back _ hrP] at b2
    have hsh := shuffleTombstones_spec hd b2 ((unionAt Z S).map val) (by simp) (by simp)
    obtain ⟨dl, ins, del, c1, c2, c3, c4⟩ := synth_factor (unionAt Z S) (newMark P) (newMark (P ++ [r.revId])) val b2 a2
      (by
        intro c _ h1 h2
        rw [newMark_eq_zero] at h2
        apply h1
        rw [newMark_eq_zero]
        exact present_mono (by intro x hx; simp [hx]) h2)
    rw [filter_newMark, hsub0, filter_newMark, hsub] at c4
    refine ⟨⟨r.revId, p, g, ins, d⟩ :: ops, older, ?_, b2, ?_, ?_⟩
    · unfold computeDeltasStep
      rw [he]
      simp [b1, hsh, c1, c2]
    · intro pre op post' hs
      cases pre with
      | nil =>
        simp only [List.nil_append, List.cons.injEq] at hs
        obtain ⟨rfl, _⟩ := hs
        simp only [List.map_nil, List.append_nil]
        refine ⟨c3, ?_, hok.2, hdel⟩
        simp only
        have e1 : (unionAt Z (P ++ [r.revId])).map (fun c => if newMark P c = 0 then 0 else 1) =
            (unionAt Z (P ++ [r.revId])).map (insMark r.revId) := by
          apply List.map_congr_left
          intro c hc
          have hc := (List.mem_filter.1 hc).2
          rw [present_snoc_iff] at hc
          by_cases hP : c.present P = true
          · rw [if_pos (newMark_eq_zero.2 hP), insMark_present hrP hP]
          · simp only [hP, Bool.false_or] at hc
            rw [if_neg (by rw [newMark_eq_zero]; exact hP), insMark_of, if_pos hc]
        have e2 : (unionAt Z S).filter (fun c => newMark (P ++ [r.revId]) c == 0 && newMark P c != 0) =
            (unionAt Z (P ++ [r.revId])).filter (insertedBy r.revId) := by
          rw [← hsub]
          rw [show unionAt (unionAt Z S) (P ++ [r.revId]) = (unionAt Z S).filter (present (P ++ [r.revId])) from rfl,
            List.filter_filter]
          apply List.filter_congr
          intro c _
          by_cases hP : c.present P = true
          · have := insMark_present hrP hP
            rw [insMark_of] at this
            simp at this
            simp [newMark, hP, this]
          · by_cases hi : c.insertedBy r.revId = true <;> simp [newMark, present_snoc_iff, hP, hi]
        rw [e1, e2] at c4
        exact c4
      | cons x pre =>
        simp only [List.cons_append, List.cons.injEq] at hs
        obtain ⟨rfl, hs⟩ := hs
        have := a3 pre op post' hs
        simpa using this
    · simp [a4, DeltaOp.info, Revision.info, he]

theorem computeDeltas_spec {Z : List (Chr α)} {dels : Subset} {f : Chr α → Nat} {X : List RevId} {revs : List Revision}
    {S : List RevId} (hd : dels.Is ((unionAt Z S).map f)) (h : Hist Z X revs)
    (hn : (X ++ ids revs).Nodup) (hS : ∀ x, x ∈ S ↔ x ∈ X ++ ids revs) :
    ∃ ops, computeDeltas revs (keep ((unionAt Z S).map f) ((unionAt Z S).map val))
        (keep (flipMask ((unionAt Z S).map f)) ((unionAt Z S).map val)) dels = some ops ∧
      OpsOk Z X ops ∧ ops.map DeltaOp.info = revs.map (fun r => (r.info.1, r.info.2.2)) := by
  obtain ⟨s, h1, h2⟩ := Subset.Is.new dels.len
  have h2 : s.Is ((unionAt Z S).map (fun _ => 0)) := by
    rw [List.map_const']
    rw [hd.len] at h2
    simpa using h2
  obtain ⟨ops, s', a1, a2, a3, a4⟩ := computeDeltas_fold hd revs X h hn hS s h2
  exact ⟨ops, by simp only [computeDeltas, h1, Option.bind_eq_bind, Option.bind_some, a1, Option.pure_def], a3, a4⟩

end Xi
