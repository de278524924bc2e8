import Verif.Spec.Editor

/-!
# The undo history of an editor: bookkeeping of the groups
-/

namespace Xi

namespace Editor

variable {α : Type} {tok : RevId → Nat} {e e' : Editor α}

theorem extendSet_eq (s xs : List Nat) (h : (s ++ xs).Nodup) : extendSet s xs = s ++ xs := by
  induction xs generalizing s with
  | nil => simp [extendSet]
  | cons x xs ih =>
    have hx : s.contains x = false := by
      rw [List.nodup_append] at h
      have := h.2.2
      cases hc : s.contains x with
      | false => rfl
      | true => exact absurd rfl (this x (by simpa using hc) x (by simp))
    have := ih (s ++ [x]) (by simpa using h)
    unfold extendSet at this ⊢
    simp only [List.foldl_cons, hx, Bool.false_eq_true, if_false]
    simpa using this

/-- The invariant of the bookkeeping. -/
structure Book (next : Nat) (live : List Nat) (cur : Nat) (undos gcs done : List Nat) : Prop where
  pos : 1 ≤ cur
  le : cur ≤ live.length
  max : live.length ≤ maxUndos
  all : (done ++ gcs ++ live).Perm (List.range next)
  sorted : live.Pairwise (· < ·)
  last : live.getLast? = some (next - 1)
  nodup : undos.Nodup
  undone : ∀ g ∈ live.drop cur, g ∈ undos
  known : ∀ g ∈ undos, g ∈ live.drop cur ∨ g ∈ gcs
  old : ∀ g ∈ gcs, g ∈ undos ∨ ∀ x ∈ live, g < x

/-- The bookkeeping of the editor is in order. -/
def Ok (e : Editor α) : Prop := Book e.undoGroupId e.liveUndos e.curUndo e.undos e.gcUndos e.collected

namespace Book

variable {next : Nat} {live : List Nat} {cur : Nat} {undos gcs done : List Nat}

theorem nodup_all (h : Book next live cur undos gcs done) : (done ++ gcs ++ live).Nodup :=
  h.all.nodup_iff.2 List.nodup_range

theorem lt_next (h : Book next live cur undos gcs done) {g : Nat} (hg : g ∈ live ∨ g ∈ gcs) : g < next := by
  have := (h.all.mem_iff (a := g)).1 (by simp; rcases hg with hg | hg <;> simp [hg])
  simpa using this

theorem next_pos (h : Book next live cur undos gcs done) : 0 < next := by
  obtain ⟨x, hx⟩ : ∃ x, x ∈ live := by
    cases live with
    | nil => have := h.pos; have := h.le; simp at this; omega
    | cons x _ => exact ⟨x, by simp⟩
  have := h.lt_next (Or.inl hx)
  omega

theorem disjoint (h : Book next live cur undos gcs done) {g : Nat} (h1 : g ∈ live) : g ∉ gcs := by
  intro h2
  have := h.nodup_all
  rw [List.nodup_append] at this
  exact this.2.2 g (by simp [h2]) g h1 rfl

theorem disjoint_done (h : Book next live cur undos gcs done) {g : Nat} (h1 : g ∈ live ∨ g ∈ gcs) : g ∉ done := by
  intro h2
  have := h.nodup_all
  rw [List.append_assoc, List.nodup_append] at this
  exact this.2.2 g h2 g (by simp; exact h1.symm) rfl

theorem nodup_live (h : Book next live cur undos gcs done) : live.Nodup :=
  h.sorted.imp (fun h => Nat.ne_of_lt h)

/-- The groups before `cur` are not undone. -/
theorem not_undone (h : Book next live cur undos gcs done) {g : Nat} (hg : g ∈ live.take cur) : g ∉ undos := by
  intro hu
  rcases h.known g hu with h1 | h1
  · have := h.nodup_live
    rw [← List.take_append_drop cur live, List.nodup_append] at this
    exact this.2.2 g hg g h1 rfl
  · exact h.disjoint (List.mem_of_mem_take hg) h1

/-- A new group, before the oldest one is forgotten. -/
theorem opened (h : Book next live cur undos gcs done) :
    (done ++ (gcs ++ live.drop cur) ++ (live.take cur ++ [next])).Perm (List.range (next + 1)) := by
  rw [List.range_succ]
  refine List.Perm.trans ?_ (h.all.append_right [next])
  have : (live.drop cur ++ live.take cur).Perm live := by
    refine List.perm_append_comm.trans ?_
    rw [List.take_append_drop]
  simpa using ((this.append_right [next]).append_left gcs).append_left done

theorem openGroup (h : Book next live cur undos gcs done) (hl : (live.take cur ++ [next]).length ≤ maxUndos) :
    Book (next + 1) (live.take cur ++ [next]) (cur + 1) undos (gcs ++ live.drop cur) done := by
  have hlen : (live.take cur).length = cur := by have := h.le; simp; omega
  have hd : (live.take cur ++ [next]).drop (cur + 1) = [] := by
    apply List.drop_eq_nil_of_le; simp; omega
  refine ⟨by omega, by have := h.le; simp; omega, hl, h.opened, ?_, by simp, h.nodup, by rw [hd]; simp, ?_, ?_⟩
  · rw [List.pairwise_append]
    refine ⟨h.sorted.sublist (List.take_sublist _ _), by simp, ?_⟩
    intro a ha b hb
    simp at hb; subst hb
    exact h.lt_next (Or.inl (List.mem_of_mem_take ha))
  · intro g hg
    right
    rcases h.known g hg with h1 | h1 <;> simp [h1]
  · intro g hg
    simp only [List.mem_append] at hg
    rcases hg with hg | hg
    · rcases h.old g hg with h1 | h1
      · exact Or.inl h1
      · right
        intro x hx
        simp only [List.mem_append, List.mem_singleton] at hx
        rcases hx with hx | rfl
        · exact h1 x (List.mem_of_mem_take hx)
        · exact h.lt_next (Or.inr hg)
    · exact Or.inl (h.undone g hg)

theorem openGroup_full (h : Book next live cur undos gcs done) (hl : ¬ (live.take cur ++ [next]).length ≤ maxUndos) :
    cur = live.length ∧ live.length = maxUndos ∧
    Book (next + 1) ((live.take cur ++ [next]).drop 1) cur undos ((gcs ++ live.drop cur) ++ (live.take cur ++ [next]).take 1) done := by
  have hm := h.max
  have hle := h.le
  have hlen : (live.take cur).length = cur := by have := h.le; simp; omega
  have hc : cur = live.length := by simp only [List.length_append, hlen, List.length_singleton] at hl; omega
  refine ⟨hc, by simp only [List.length_append, hlen, List.length_singleton] at hl; omega, ?_⟩
  subst hc
  have h0 := h.opened
  simp only [List.take_length, List.drop_length, List.append_nil] at h0 ⊢
  obtain ⟨x, xs, hx⟩ : ∃ x xs, live = x :: xs := by
    cases live with
    | nil => have := h.pos; simp at this
    | cons x xs => exact ⟨x, xs, rfl⟩
  have hs := h.sorted
  have hlt := fun g hg => h.lt_next (g := g) hg
  have hold := h.old
  have hkn := h.known
  have hnd := h.nodup
  have hpos := h.pos
  subst hx
  simp only [List.cons_append, List.drop_succ_cons, List.drop_zero, List.take_succ_cons, List.take_zero] at h0 ⊢
  have hd : (xs ++ [next]).drop (x :: xs).length = [] := by apply List.drop_eq_nil_of_le; simp
  refine ⟨hpos, by simp, by simpa using hm, ?_, ?_, by simp, hnd, by rw [hd]; simp, ?_, ?_⟩
  · refine List.Perm.trans ?_ h0
    simp
  · rw [List.pairwise_append]
    refine ⟨(List.pairwise_cons.1 hs).2, by simp, ?_⟩
    intro a ha b hb
    simp at hb; subst hb
    exact hlt a (Or.inl (by simp [ha]))
  · intro g hg
    rcases hkn g hg with h1 | h1
    · simp at h1
    · right; simp [h1]
  · intro g hg
    simp only [List.mem_append, List.mem_singleton] at hg
    rcases hg with hg | rfl
    · rcases hold g hg with h1 | h1
      · exact Or.inl h1
      · right
        intro y hy
        simp only [List.mem_append, List.mem_singleton] at hy
        rcases hy with hy | rfl
        · exact h1 y (by simp [hy])
        · exact hlt g (Or.inr hg)
    · right
      intro y hy
      simp only [List.mem_append, List.mem_singleton] at hy
      rcases hy with hy | rfl
      · exact (List.pairwise_cons.1 hs).1 y hy
      · exact hlt g (Or.inl (by simp))

theorem gc (h : Book next live cur undos gcs done) :
    Book next live cur (undos.filter (fun g => !gcs.contains g)) [] (done ++ gcs) := by
  refine ⟨h.pos, h.le, h.max, by simpa using h.all, h.sorted, h.last, h.nodup.filter _, ?_, ?_, by simp⟩
  · intro g hg
    have := h.disjoint (List.mem_of_mem_drop hg)
    simp [h.undone g hg, this]
  · intro g hg
    simp only [List.mem_filter, Bool.not_eq_true'] at hg
    rcases h.known g hg.1 with h1 | h1
    · exact Or.inl h1
    · exact absurd h1 (by simpa using hg.2)

theorem undo (h : Book next live cur undos gcs done) (hc : 1 < cur) {g : Nat} (hg : live[cur - 1]? = some g) :
    g ∉ undos ∧ g ∉ gcs ∧ live.drop (cur - 1) = g :: live.drop cur ∧ Book next live (cur - 1) (undos ++ [g]) gcs done := by
  have hlive : g ∈ live := List.mem_of_getElem? hg
  have hd : live.drop (cur - 1) = g :: live.drop cur := by
    obtain ⟨hi, hgi⟩ := List.getElem?_eq_some_iff.1 hg
    have := List.drop_eq_getElem_cons hi
    rw [this, hgi]
    congr 2; omega
  have hu : g ∉ undos := by
    apply h.not_undone
    rw [List.mem_take_iff_getElem]
    obtain ⟨hi, hgi⟩ := List.getElem?_eq_some_iff.1 hg
    exact ⟨cur - 1, by have := h.le; omega, hgi⟩
  refine ⟨hu, h.disjoint hlive, hd, by omega, by have := h.le; omega, h.max, h.all, h.sorted, h.last, ?_, ?_, ?_, ?_⟩
  · rw [List.nodup_append]
    refine ⟨h.nodup, by simp, ?_⟩
    intro a ha b hb
    simp at hb; subst hb
    rintro rfl; exact hu ha
  · intro x hx
    rw [hd] at hx
    simp only [List.mem_cons] at hx
    rcases hx with rfl | hx
    · simp
    · simp [h.undone x hx]
  · intro x hx
    simp only [List.mem_append, List.mem_singleton] at hx
    rw [hd]
    rcases hx with hx | rfl
    · rcases h.known x hx with h1 | h1 <;> simp [h1]
    · simp
  · intro x hx
    rcases h.old x hx with h1 | h1
    · left; simp [h1]
    · exact Or.inr h1

theorem redo (h : Book next live cur undos gcs done) {g : Nat} (hg : live[cur]? = some g) :
    g ∈ undos ∧ g ∉ gcs ∧ live.drop cur = g :: live.drop (cur + 1) ∧ g ∉ live.drop (cur + 1) ∧
      Book next live (cur + 1) (undos.filter (fun x => x != g)) gcs done := by
  have hlive : g ∈ live := List.mem_of_getElem? hg
  obtain ⟨hi, hgi⟩ := List.getElem?_eq_some_iff.1 hg
  have hd : live.drop cur = g :: live.drop (cur + 1) := by rw [List.drop_eq_getElem_cons hi, hgi]
  have hn : g ∉ live.drop (cur + 1) := by
    have : (live.drop cur).Nodup := h.nodup_live.sublist (List.drop_sublist _ _)
    rw [hd, List.nodup_cons] at this
    exact this.1
  refine ⟨h.undone g (by rw [hd]; simp), h.disjoint hlive, hd, hn, by omega, by omega, h.max, h.all, h.sorted, h.last, h.nodup.filter _, ?_, ?_, ?_⟩
  · intro x hx
    have : x ≠ g := by rintro rfl; exact hn hx
    simp [this, h.undone x (by rw [hd]; simp [hx])]
  · intro x hx
    simp only [List.mem_filter, bne_iff_ne, ne_eq] at hx
    rcases h.known x hx.1 with h1 | h1
    · rw [hd, List.mem_cons] at h1
      rcases h1 with h1 | h1
      · exact absurd h1 hx.2
      · exact Or.inl h1
    · exact Or.inr h1
  · intro x hx
    rcases h.old x hx with h1 | h1
    · left
      have : x ≠ g := by rintro rfl; exact h.disjoint hlive hx
      simp [h1, this]
    · exact Or.inr h1

end Book

/-! ### The operations -/

theorem withText_ok {text : List α} (h : withText tok text = some e) : e.Ok := by
  simp only [withText, Option.bind_eq_bind, Option.bind_eq_some_iff] at h
  obtain ⟨_, _, _, _, h⟩ := h
  cases h
  exact ⟨Nat.le_refl _, Nat.le_refl _, by show 1 ≤ 20; omega, by simp [List.range_succ], by simp, by simp, by simp, by simp, by simp, by simp⟩

theorem Ok.getLast (h : e.Ok) : e.liveUndos.getLast? = some (e.undoGroupId - 1) := h.last

theorem extend_drop (h : e.Ok) : extendSet e.gcUndos (e.liveUndos.drop e.curUndo) = e.gcUndos ++ e.liveUndos.drop e.curUndo := by
  apply extendSet_eq
  have := h.nodup_all
  rw [List.append_assoc] at this
  exact (List.nodup_append.1 this).2.1.sublist ((List.Sublist.refl _).append (List.drop_sublist _ _))

/-- A new group. -/
theorem openGroup_spec (h : e.Ok) : ∃ e', e.openGroup = some (e.undoGroupId, e') ∧ e'.Ok ∧
    e'.liveUndos = (e.liveUndos.take e.curUndo ++ [e.undoGroupId]).drop (e.curUndo + 1 - maxUndos) ∧
    e'.curUndo = e'.liveUndos.length ∧
    e'.gcUndos = e.gcUndos ++ e.liveUndos.drop e.curUndo ++ (e.liveUndos.take e.curUndo ++ [e.undoGroupId]).take (e.curUndo + 1 - maxUndos) ∧
    e'.undoGroupId = e.undoGroupId + 1 ∧
    e' = { e with liveUndos := e'.liveUndos, curUndo := e'.curUndo, gcUndos := e'.gcUndos, undoGroupId := e'.undoGroupId } := by
  have hb : Book _ _ _ _ _ _ := h
  have hle := hb.le
  have hm := hb.max
  have hlen : (e.liveUndos.take e.curUndo).length = e.curUndo := by simp; omega
  rw [openGroup, if_neg (by omega)]
  simp only [extend_drop h]
  by_cases hc : (e.liveUndos.take e.curUndo ++ [e.undoGroupId]).length ≤ maxUndos
  · rw [if_pos hc]
    have hz : e.curUndo + 1 - maxUndos = 0 := by simp [hlen] at hc; omega
    refine ⟨_, rfl, hb.openGroup hc, by simp [hz], ?_, by simp [hz], rfl, rfl⟩
    simp; omega
  · obtain ⟨h1, h2, h3⟩ := hb.openGroup_full hc
    rw [if_neg hc]
    have hz : e.curUndo + 1 - maxUndos = 1 := by omega
    have hx : extendSet (e.gcUndos ++ e.liveUndos.drop e.curUndo) ((e.liveUndos.take e.curUndo ++ [e.undoGroupId]).take 1) =
        e.gcUndos ++ e.liveUndos.drop e.curUndo ++ (e.liveUndos.take e.curUndo ++ [e.undoGroupId]).take 1 := by
      apply extendSet_eq
      have := h3.nodup_all
      rw [List.append_assoc] at this
      exact (List.nodup_append.1 (List.nodup_append.1 this).2.1).1
    rw [hx]
    refine ⟨_, rfl, h3, by rw [hz], ?_, by rw [hz], rfl, rfl⟩
    show e.curUndo = _
    simp only [List.length_drop, List.length_append, hlen, List.length_singleton]; omega

/-- The group for the next edit. -/
theorem calculate_spec (h : e.Ok) :
    ((e.forceUndoGroup || !e.thisEditType.breaksUndoGroup e.lastEditType) = true → e.calculateUndoGroup = some (e.undoGroupId - 1, e)) ∧
    ((e.forceUndoGroup || !e.thisEditType.breaksUndoGroup e.lastEditType) = false → e.calculateUndoGroup = e.openGroup) := by
  rw [calculateUndoGroup, h.getLast]
  constructor
  · intro hc; simp only; rw [if_pos hc]
  · intro hc; simp only; rw [hc]; rfl

theorem calculate_ok (h : e.Ok) {g : Nat} (hc : e.calculateUndoGroup = some (g, e')) : e'.Ok := by
  obtain ⟨h1, h2⟩ := calculate_spec h
  cases hb : (e.forceUndoGroup || !e.thisEditType.breaksUndoGroup e.lastEditType) with
  | true => rw [h1 hb] at hc; cases hc; exact h
  | false =>
    rw [h2 hb] at hc
    obtain ⟨e1, a1, a2, _⟩ := openGroup_spec h
    rw [a1] at hc; cases hc; exact a2

theorem addDelta_ok (h : e.Ok) {d : Delta α} (hd : e.addDelta tok d = some e') : e'.Ok := by
  simp only [addDelta, Option.bind_eq_bind, Option.bind_eq_some_iff] at hd
  obtain ⟨_, _, ⟨g, e1⟩, h1, _, _, h2⟩ := hd
  cases h2
  have := calculate_ok h h1
  exact this

theorem applyPluginEdit_ok (h : e.Ok) {rev p : Nat} {g : Option Nat} {d : Delta α} (hd : e.applyPluginEdit tok rev p g d = some e') : e'.Ok := by
  simp only [applyPluginEdit, Option.bind_eq_bind, Option.bind_eq_some_iff] at hd
  obtain ⟨⟨g', e1⟩, h1, x, _, h2⟩ := hd
  have h3 : e1.Ok := by
    unfold pluginGroup at h1
    split at h1
    · cases h1; exact h
    · exact calculate_ok h h1
  cases x <;> (cases h2; exact h3)

theorem commitDelta_ok (h : e.Ok) {x} (hd : e.commitDelta tok = some (e', x)) : e'.Ok := by
  simp only [commitDelta, Option.bind_eq_bind, Option.bind_eq_some_iff] at hd
  obtain ⟨c, _, hd⟩ := hd
  split at hd
  · simp only [Option.bind_eq_some_iff] at hd
    obtain ⟨y, _, hd⟩ := hd
    cases y with
    | error _ => cases hd
    | ok y =>
      simp only [Option.bind_eq_some_iff] at hd
      obtain ⟨_, _, _, _, _, _, hd⟩ := hd
      cases hd
      exact h
  · cases hd; exact h

theorem runGc_ok (h : e.Ok) (hd : e.runGc = some e') : e'.Ok := by
  unfold runGc at hd
  split at hd
  · simp only [Option.bind_eq_bind, Option.bind_eq_some_iff] at hd
    obtain ⟨_, _, hd⟩ := hd
    cases hd
    exact Book.gc h
  · cases hd; exact h

theorem decRevsInFlight_ok (h : e.Ok) (hd : e.decRevsInFlight = some e') : e'.Ok := by
  unfold decRevsInFlight at hd
  split at hd
  · cases hd
  · exact runGc_ok (e := { e with revsInFlight := e.revsInFlight - 1 }) h hd

theorem updateUndos_ok (h : e.Ok) (hd : e.updateUndos = some e') : e'.Ok := by
  simp only [updateUndos, Option.bind_eq_bind, Option.bind_eq_some_iff] at hd
  obtain ⟨_, _, hd⟩ := hd
  cases hd
  exact h

/-- Undo moves one step back. -/
theorem doUndo_spec (h : e.Ok) : (e.curUndo ≤ 1 → e.doUndo = some e) ∧
    (1 < e.curUndo → ∃ g, e.liveUndos[e.curUndo - 1]? = some g ∧ g ∉ e.undos ∧
      e.doUndo = updateUndos { e with curUndo := e.curUndo - 1, undos := e.undos ++ [g], thisEditType := .undo }) := by
  have hb : Book _ _ _ _ _ _ := h
  constructor
  · intro hc; rw [doUndo, if_neg (by omega)]
  · intro hc
    have hle := hb.le
    have hg : e.liveUndos[e.curUndo - 1]? = some (e.liveUndos[e.curUndo - 1]'(by omega)) := List.getElem?_eq_getElem _
    refine ⟨_, hg, (hb.undo hc hg).1, ?_⟩
    rw [doUndo, if_pos hc, hg]
    simp only [Option.bind_eq_bind, Option.bind_some]
    rw [if_neg (by simpa using (hb.undo hc hg).1)]

/-- Redo moves one step forward. -/
theorem doRedo_spec (h : e.Ok) : (e.liveUndos.length ≤ e.curUndo → e.doRedo = some e) ∧
    (e.curUndo < e.liveUndos.length → ∃ g, e.liveUndos[e.curUndo]? = some g ∧ g ∈ e.undos ∧
      e.doRedo = updateUndos { e with curUndo := e.curUndo + 1, undos := e.undos.filter (fun x => x != g), thisEditType := .redo }) := by
  have hb : Book _ _ _ _ _ _ := h
  constructor
  · intro hc; rw [doRedo, if_neg (by omega)]
  · intro hc
    have hg : e.liveUndos[e.curUndo]? = some (e.liveUndos[e.curUndo]'(by omega)) := List.getElem?_eq_getElem _
    refine ⟨_, hg, (hb.redo hg).1, ?_⟩
    rw [doRedo, if_pos hc, hg]
    simp only [Option.bind_eq_bind, Option.bind_some]
    rw [if_pos (by simpa using (hb.redo hg).1)]

theorem doUndo_ok (h : e.Ok) (hd : e.doUndo = some e') : e'.Ok := by
  obtain ⟨h1, h2⟩ := doUndo_spec h
  by_cases hc : 1 < e.curUndo
  · obtain ⟨g, a1, a2, a3⟩ := h2 hc
    rw [a3] at hd
    refine updateUndos_ok ?_ hd
    exact (Book.undo h hc a1).2.2.2
  · rw [h1 (by omega)] at hd; cases hd; exact h

theorem doRedo_ok (h : e.Ok) (hd : e.doRedo = some e') : e'.Ok := by
  obtain ⟨h1, h2⟩ := doRedo_spec h
  by_cases hc : e.curUndo < e.liveUndos.length
  · obtain ⟨g, a1, a2, a3⟩ := h2 hc
    rw [a3] at hd
    refine updateUndos_ok ?_ hd
    exact (Book.redo h a1).2.2.2.2
  · rw [h1 (by omega)] at hd; cases hd; exact h

theorem command_ok (h : e.Ok) {t : CommandType} {d : Option (Delta α)} (hd : e.command tok t d = some e') : e'.Ok := by
  unfold command at hd
  split at hd
  · cases hd; exact h
  · simp only [Option.bind_eq_bind, Option.bind_eq_some_iff] at hd
    obtain ⟨e1, h1, hd⟩ := hd
    have h2 : e1.Ok := by
      refine addDelta_ok ?_ h1
      cases t.before <;> exact h
    cases hd
    cases t.after <;> exact h2

theorem dispatch_ok (h : e.Ok) {ev : Event α} (hd : e.dispatch tok ev = some e') : e'.Ok := by
  cases ev with
  | buffer t d => exact command_ok h hd
  | undo => exact doUndo_ok h hd
  | redo => exact doRedo_ok h hd
  | view => cases hd; exact h

theorem playStep_ok (h : e.Ok) {ev : Event α} (hd : e.playStep tok ev = some e') : e'.Ok := by
  simp only [playStep, Option.bind_eq_bind, Option.bind_eq_some_iff] at hd
  obtain ⟨e1, h1, ⟨e2, x⟩, h2, hd⟩ := hd
  cases hd
  exact commitDelta_ok (dispatch_ok h h1) h2

theorem updatePlugins_ok (h : e.Ok) {n : Nat} (hd : e.updatePlugins n = some e') : e'.Ok := by
  simp only [updatePlugins, Option.bind_eq_bind, Option.bind_eq_some_iff] at hd
  obtain ⟨e1, h1, hd⟩ := hd
  cases hd
  have : e1.Ok := decRevsInFlight_ok (e := { e with revsInFlight := e.revsInFlight + 1 + n }) h h1
  exact this

theorem afterEdit_ok (h : e.Ok) {n : Nat} (hd : e.afterEdit tok n = some e') : e'.Ok := by
  simp only [afterEdit, Option.bind_eq_bind, Option.bind_eq_some_iff] at hd
  obtain ⟨⟨e1, x⟩, h1, hd⟩ := hd
  cases x with
  | none => cases hd; exact h
  | some x => exact updatePlugins_ok (commitDelta_ok h h1) hd

theorem foldlM_ok {β : Type} {f : Editor α → β → Option (Editor α)} (hf : ∀ e e' b, e.Ok → f e b = some e' → e'.Ok) (l : List β)
    (h : e.Ok) (hd : l.foldlM f e = some e') : e'.Ok := by
  induction l generalizing e with
  | nil => cases hd; exact h
  | cons b l ih =>
    simp only [List.foldlM_cons, Option.bind_eq_bind, Option.bind_eq_some_iff] at hd
    obtain ⟨e1, h1, hd⟩ := hd
    exact ih (hf _ _ _ h h1) hd

theorem play_ok (h : e.Ok) {events : List (Event α)} {n : Nat} (hd : e.play tok events n = some e') : e'.Ok := by
  simp only [play, Option.bind_eq_bind, Option.bind_eq_some_iff] at hd
  obtain ⟨⟨g, e1⟩, h1, e2, h2, hd⟩ := hd
  have a1 : e1.Ok := calculate_ok (e := e.updateEditType) h h1
  have a2 : e2.Ok := foldlM_ok (e := e1.setForceUndoGroup true) (fun _ _ _ h h' => playStep_ok h h') events a1 h2
  exact updatePlugins_ok (e := (e2.setForceUndoGroup false).updateEditType) a2 hd

theorem setPristine_ok (h : e.Ok) (hd : e.setPristine = some e') : e'.Ok := by
  simp only [setPristine, Option.bind_eq_bind, Option.bind_eq_some_iff] at hd
  obtain ⟨_, _, hd⟩ := hd
  cases hd
  exact h

theorem input_ok (h : e.Ok) {n : Nat} {i : Input α} (hd : input tok n e i = some e') : e'.Ok := by
  cases i with
  | event ev =>
    simp only [input, Option.bind_eq_bind, Option.bind_eq_some_iff] at hd
    obtain ⟨e1, h1, hd⟩ := hd
    exact afterEdit_ok (dispatch_ok h h1) hd
  | play evs =>
    simp only [input, Option.bind_eq_bind, Option.bind_eq_some_iff] at hd
    obtain ⟨e1, h1, hd⟩ := hd
    exact afterEdit_ok (play_ok h h1) hd
  | plugin rev p g d =>
    simp only [input, Option.bind_eq_bind, Option.bind_eq_some_iff] at hd
    obtain ⟨e1, h1, hd⟩ := hd
    exact afterEdit_ok (applyPluginEdit_ok h h1) hd
  | ack => exact decRevsInFlight_ok h hd
  | save => exact setPristine_ok h hd
  | reload d =>
    simp only [input, reload, Option.bind_eq_bind, Option.bind_eq_some_iff] at hd
    obtain ⟨e1, ⟨e2, h2, h1⟩, hd⟩ := hd
    exact afterEdit_ok (setPristine_ok (addDelta_ok h h2) h1) hd

theorem Run.ok (h : Run tok e) : e.Ok := by
  induction h with
  | start h => exact withText_ok h
  | step n i _ h ih => exact input_ok ih h

end Editor

end Xi
