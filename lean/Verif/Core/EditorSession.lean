import Verif.Core.EditorStack

/-!
# The undo history of an editor: sessions
-/

namespace Xi

namespace Editor

variable {α : Type} {tok : RevId → Nat} {e e' : Editor α} {s : UndoStack α} {l : List (Chr α)}

/-- Parts of the editor that the stack does not depend on. -/
theorem Core.same (h : Core tok e s l) (k : Nat) (t1 t2 : EditType) (f : Bool) (r1 r2 : RevId) (lt : EditType) :
    Core tok { e with revsInFlight := k, thisEditType := t1, lastEditType := t2, forceUndoGroup := f, lastRevId := r1, pristineRevId := r2 }
      ⟨s.texts, s.cur, lt⟩ l :=
  ⟨h.ok, h.reach, h.den, h.text, h.texts, h.cur, h.undone, h.fresh, h.revs, h.mono⟩

/-- Between two inputs. -/
structure Rest (tok : RevId → Nat) (e : Editor α) (s : UndoStack α) (l : List (Chr α)) : Prop where
  core : Core tok e s l
  head : HeadLive e
  committed : e.engine.getHeadRevId = some e.lastRevId
  this : e.thisEditType = .other
  force : e.forceUndoGroup = false
  last : s.last = e.lastEditType
  redo : e.curUndo < e.liveUndos.length → e.lastEditType = .other ∨ e.lastEditType = .undo ∨ e.lastEditType = .redo

theorem head_snoc {en : Engine α} {revs : List Revision} {r : Revision} (h : en.revs = revs ++ [r]) : en.getHeadRevId = some r.revId := by
  simp [Engine.getHeadRevId, h]

theorem head_mem {en : Engine α} {id : RevId} (h : en.getHeadRevId = some id) : id ∈ ids en.revs := by
  simp only [Engine.getHeadRevId, Option.map_eq_some_iff] at h
  obtain ⟨r, h1, h2⟩ := h
  exact mem_ids.2 ⟨r, List.mem_of_getLast? h1, h2⟩

theorem findLastIdx_isSome {β : Type} {p : β → Bool} {l : List β} {x : β} (hx : x ∈ l) (hp : p x = true) : ∃ i, findLastIdx p l = some i := by
  induction l with
  | nil => cases hx
  | cons y l ih =>
    rw [findLastIdx]
    cases hf : findLastIdx p l with
    | some j => exact ⟨j + 1, rfl⟩
    | none =>
      rcases List.mem_cons.1 hx with rfl | hx
      · exact ⟨0, by simp [hp]⟩
      · obtain ⟨i, hi⟩ := ih hx
        rw [hf] at hi; cases hi

/-- Nothing to commit. -/
theorem commit_same (h : e.engine.getHeadRevId = some e.lastRevId) : e.commitDelta tok = some (e, none) := by
  simp [commitDelta, changed, h]

/-- A change is committed. -/
theorem Core.commit (h : Core tok e s l) (hm : e.lastRevId ∈ ids e.engine.revs) {id : RevId} (hid : e.engine.getHeadRevId = some id)
    (hne : id ≠ e.lastRevId) : ∃ x, e.commitDelta tok = some ({ e with lastRevId := id }, some x) := by
  obtain ⟨r, h1, h2⟩ := mem_ids.1 hm
  obtain ⟨i, hi⟩ := findLastIdx_isSome (p := fun x => tok x.revId == tok e.lastRevId) h1 (by rw [h2]; simp)
  have hf : e.engine.findRevToken tok (tok e.lastRevId) = some i := hi
  obtain ⟨pre, r', post, a1, a2, _⟩ := Engine.findRevToken_some hf
  subst a2
  have hg := h.den.getRev a1 hf
  obtain ⟨d, hd, _⟩ := h.den.deltaRevHead hg
  refine ⟨(d, keep (revMask e.engine l post) (l.map Chr.val)), ?_⟩
  simp only [commitDelta, changed, hid, Option.bind_eq_bind, Option.bind_some, Option.pure_def]
  rw [if_pos (by simpa using hne)]
  simp only [hd, hg, Option.bind_some]

theorem HeadLive.same (h : HeadLive e) (k : Nat) (t1 t2 : EditType) (f : Bool) (r1 r2 : RevId) :
    HeadLive { e with revsInFlight := k, thisEditType := t1, lastEditType := t2, forceUndoGroup := f, lastRevId := r1, pristineRevId := r2 } := h

theorem Core.updatePlugins (h : Core tok e s l) (hh : HeadLive e) (n : Nat) (lt : EditType) : ∃ e' l', e.updatePlugins n = some e' ∧
    Core tok e' ⟨s.texts, s.cur, lt⟩ l' ∧ HeadLive e' ∧ e'.engine.getHeadRevId = e.engine.getHeadRevId ∧ e'.lastRevId = e.lastRevId ∧
    e'.thisEditType = .other ∧ e'.lastEditType = e.thisEditType ∧ e'.forceUndoGroup = e.forceUndoGroup ∧
    e'.curUndo = e.curUndo ∧ e'.liveUndos = e.liveUndos := by
  obtain ⟨e1, l1, a1, a2, a3, a4, a5, a6, a7, a8, a9, a10⟩ :=
    (h.same (e.revsInFlight + n) e.thisEditType e.lastEditType e.forceUndoGroup e.lastRevId e.pristineRevId s.last).runGc hh
  refine ⟨e1.updateEditType, l1, ?_, a2.same e1.revsInFlight .other e1.thisEditType e1.forceUndoGroup e1.lastRevId e1.pristineRevId lt, a3, a4, a5, rfl, a6, a8, a9, a10⟩
  simp only [Editor.updatePlugins, Option.bind_eq_bind, decRevsInFlight]
  rw [if_neg (by omega), show e.revsInFlight + 1 + n - 1 = e.revsInFlight + n by omega]
  have : Editor.runGc { e with revsInFlight := e.revsInFlight + n } = some e1 := a1
  rw [this]; rfl

/-- After an edit. -/
theorem Core.afterEdit (h : Core tok e s l) (hh : HeadLive e) (hm : e.lastRevId ∈ ids e.engine.revs)
    (hne : e.engine.getHeadRevId ≠ some e.lastRevId) (hf : e.forceUndoGroup = false)
    (ht : e.curUndo < e.liveUndos.length → e.thisEditType = .other ∨ e.thisEditType = .undo ∨ e.thisEditType = .redo) (n : Nat) :
    ∃ e' l', e.afterEdit tok n = some e' ∧ Rest tok e' ⟨s.texts, s.cur, e.thisEditType⟩ l' := by
  obtain ⟨pre, r, _, hr⟩ := h.den.last
  have hid : e.engine.getHeadRevId = some r.revId := by simp [Engine.getHeadRevId, hr]
  obtain ⟨x, hx⟩ := h.commit hm hid (by rintro hc; rw [hid, hc] at hne; exact hne rfl)
  obtain ⟨e1, l1, a1, a2, a3, a4, a5, a6, a7, a8, a9, a10⟩ :=
    (h.same e.revsInFlight e.thisEditType e.lastEditType e.forceUndoGroup r.revId e.pristineRevId s.last).updatePlugins hh n e.thisEditType
  refine ⟨e1, l1, ?_, a2, a3, ?_, a6, by rw [a8]; exact hf, a7.symm, ?_⟩
  · simp only [Editor.afterEdit, hx, Option.bind_eq_bind, Option.bind_some]
    exact a1
  · rw [a4, a5]; exact hid
  · intro hc
    rw [a7]
    rw [a9, a10] at hc
    exact ht hc

theorem amend_push (s : UndoStack α) (a b : List α) (t t' : EditType) : (s.push a t).amend b t' = s.push b t' := by
  unfold UndoStack.push UndoStack.amend
  have h1 : (s.texts.take s.cur ++ [a]).length = (s.texts.take s.cur ++ [b]).length := by simp
  simp only [h1, List.length_drop]
  have h2 : ∀ c : List α, (s.texts.take s.cur ++ [c]).drop ((s.texts.take s.cur ++ [b]).length - 20) =
      (s.texts.take s.cur).drop ((s.texts.take s.cur ++ [b]).length - 20) ++ [c] := by
    intro c
    exact List.drop_append_of_le_length (by simp only [List.length_append, List.length_singleton]; omega)
  rw [h2, h2, List.dropLast_concat]

/-- The stack after an edit. -/
def nextStack (s : UndoStack α) (cont : Bool) (text : List α) (lt : EditType) : UndoStack α :=
  if cont then s.amend text lt else s.push text lt

/-- An edit of the current text. -/
theorem Core.addDelta (h : Core tok e s l) {d : Delta α} (hd : d.Fits e.text)
    (hcont : (e.forceUndoGroup || !e.thisEditType.breaksUndoGroup e.lastEditType) = true → e.curUndo = e.liveUndos.length) (lt : EditType) :
    ∃ e' l', e.addDelta tok d = some e' ∧
      Core tok e' (nextStack s (e.forceUndoGroup || !e.thisEditType.breaksUndoGroup e.lastEditType) (d.result e.text) lt) l' ∧
      HeadLive e' ∧ e'.curUndo = e'.liveUndos.length ∧ e'.text = d.result e.text ∧
      e'.lastRevId = e.lastRevId ∧ e'.thisEditType = e.thisEditType ∧ e'.forceUndoGroup = e.forceUndoGroup ∧
      ∃ r, e'.engine.revs = e.engine.revs ++ [r] ∧ r.revId = e.engine.nextRevId := by
  obtain ⟨pre, r, _, hr⟩ := h.den.last
  have hid : e.engine.getHeadRevId = some r.revId := by simp [Engine.getHeadRevId, hr]
  obtain ⟨c1, c2⟩ := calculate_spec h.ok
  cases hc : (e.forceUndoGroup || !e.thisEditType.breaksUndoGroup e.lastEditType) with
  | true =>
    have hcl := hcont hc
    obtain ⟨en, a1, a2⟩ := h.headEdit hcl hid 0x10000 hd
    obtain ⟨l', b1, b2, b3⟩ := h.edit hcl hd.1 a1 e.thisEditType e.thisEditType lt
    refine ⟨_, l', ?_, by rw [← a2]; exact b1, b2, hcl, a2, rfl, rfl, rfl, b3⟩
    simp only [Editor.addDelta, hid, c1 hc, Option.bind_eq_bind, Option.bind_some, Engine.editRev, a1]
    rfl
  | false =>
    obtain ⟨e1, a1, a2, a3, a4, a5, a6, a7, a8, a9, a10, a11⟩ := h.openGroup lt
    have hid1 : e1.engine.getHeadRevId = some r.revId := by rw [a5]; exact hid
    obtain ⟨en, b1, b2⟩ := a3.headEdit a4 hid1 0x10000 (d := d) (by rw [a6]; exact hd)
    obtain ⟨l', d1, d2, d3⟩ := a3.edit a4 hd.1 b1 e1.thisEditType e1.thisEditType lt
    rw [amend_push] at d1
    rw [a6] at b2
    refine ⟨{ e1 with engine := en, text := en.text, lastEditType := e1.thisEditType }, l', ?_, by rw [← b2]; exact d1, d2, a4, b2, a10, a7, a9, by rw [a5] at d3; exact d3⟩
    simp only [Editor.addDelta, hid, c2 hc, a1, Option.bind_eq_bind, Option.bind_some, Engine.editRev]
    rw [show e.undoGroupId = e1.undoGroupId - 1 by omega, b1]
    rfl

theorem Rest.lastMem (h : Rest tok e s l) : e.lastRevId ∈ ids e.engine.revs := head_mem h.committed

theorem head_ne {en : Engine α} {id : RevId} {r : Revision} (h : Den e.engine l) (hm : id ∈ ids e.engine.revs) (hr : en.revs = e.engine.revs ++ [r])
    (hid : r.revId = e.engine.nextRevId) : en.getHeadRevId ≠ some id := by
  rw [head_snoc hr, hid]
  intro hc
  cases hc
  exact h.fresh_id hm

theorem mem_ids_snoc {en : Engine α} {revs : List Revision} {r : Revision} {id : RevId} (h : en.revs = revs ++ [r]) (hm : id ∈ ids revs) : id ∈ ids en.revs := by
  rw [h, ids_append]; simp [hm]

theorem setType_eq (e : Editor α) (t : Option EditType) : e.setType t = { e with thisEditType := t.getD e.thisEditType } := by
  cases t <;> rfl

/-- Whether a command continues the last step. -/
theorem continues_iff (t u : EditType) : (false || !t.breaksUndoGroup u) = true ↔ t = u ∧ t ≠ .other ∧ t ≠ .transpose := by
  cases t <;> cases u <;> simp [EditType.breaksUndoGroup]

/-- A command. -/
theorem Rest.command (h : Rest tok e s l) {t : CommandType} (ht : t.Plain) {d : Delta α} (hd : d.Fits e.text) (n : Nat) :
    ∃ e' l', input tok n e (.event (.buffer t (some d))) = some e' ∧ Rest tok e' (s.command t.first (d.result e.text) t.final) l' := by
  have hcont : (e.forceUndoGroup || !t.first.breaksUndoGroup e.lastEditType) = true → e.curUndo = e.liveUndos.length := by
    rw [h.force, continues_iff]
    rintro ⟨h1, h2, h3⟩
    have hb : Book _ _ _ _ _ _ := h.core.ok
    have := hb.le
    by_cases hc : e.curUndo < e.liveUndos.length
    · have hl := h.redo hc
      rw [← h1] at hl
      obtain ⟨p1, p2, _⟩ := ht
      unfold CommandType.first at hl h2
      cases hb : t.before with
      | none => rw [hb] at h2; simp at h2
      | some b =>
        rw [hb] at hl p1 p2 h2
        simp at hl p1 p2 h2
        rcases hl with rfl | rfl | rfl <;> simp_all
    · omega
  obtain ⟨e1, l1, a1, a2, a3, a4, a5, a6, a7, a8, r, a9, a10⟩ :=
    (h.core.same e.revsInFlight t.first e.lastEditType e.forceUndoGroup e.lastRevId e.pristineRevId s.last).addDelta (d := d) hd hcont t.final
  have a2' := a2.same e1.revsInFlight t.final e1.lastEditType e1.forceUndoGroup e1.lastRevId e1.pristineRevId t.final
  obtain ⟨e2, l2, b1, b2⟩ := a2'.afterEdit a3 (by show e1.lastRevId ∈ _; rw [a6]; exact mem_ids_snoc a9 h.lastMem)
    (by show _ ≠ some e1.lastRevId; rw [a6]; exact head_ne h.core.den h.lastMem a9 a10) (by show e1.forceUndoGroup = _; rw [a8]; exact h.force)
    (by intro hc; exact absurd hc (by show ¬ e1.curUndo < e1.liveUndos.length; omega)) n
  refine ⟨e2, l2, ?_, ?_⟩
  · simp only [input, dispatch, Editor.command, Option.bind_eq_bind]
    have ha : Editor.addDelta tok (e.setType t.before) d = some e1 := by rw [setType_eq, h.this]; exact a1
    rw [ha]
    have hfin : e1.setType t.after = { e1 with thisEditType := t.final } := by
      rw [setType_eq, a7]; rfl
    simp only [Option.bind_some, Option.pure_def, hfin]
    exact b1
  · have : (⟨(nextStack s (e.forceUndoGroup || !t.first.breaksUndoGroup e.lastEditType) (d.result e.text) t.final).texts,
        (nextStack s (e.forceUndoGroup || !t.first.breaksUndoGroup e.lastEditType) (d.result e.text) t.final).cur, t.final⟩ : UndoStack α) =
        s.command t.first (d.result e.text) t.final := by
      unfold UndoStack.command nextStack
      rw [h.last, h.force]
      by_cases hc : t.first = e.lastEditType ∧ t.first ≠ .other ∧ t.first ≠ .transpose
      · rw [if_pos hc, if_pos ((continues_iff _ _).2 hc)]; rfl
      · rw [if_neg hc, if_neg (fun hk => hc ((continues_iff _ _).1 hk))]; rfl
    rw [← this]
    exact b2

theorem Rest.same (h : Rest tok e s l) (k : Nat) (r : RevId) : Rest tok { e with revsInFlight := k, pristineRevId := r } s l :=
  ⟨⟨h.core.ok, h.core.reach, h.core.den, h.core.text, h.core.texts, h.core.cur, h.core.undone, h.core.fresh, h.core.revs, h.core.mono⟩,
    h.head, h.committed, h.this, h.force, h.last, h.redo⟩

theorem afterEdit_same (h : e.engine.getHeadRevId = some e.lastRevId) (n : Nat) : e.afterEdit tok n = some e := by
  simp [Editor.afterEdit, commit_same h]

theorem Rest.undo (h : Rest tok e s l) (n : Nat) : ∃ e' l', input tok n e (.event .undo) = some e' ∧ Rest tok e' s.undo l' := by
  have hb : Book _ _ _ _ _ _ := h.core.ok
  obtain ⟨h1, h2⟩ := doUndo_spec h.core.ok
  simp only [input, dispatch, Option.bind_eq_bind]
  by_cases hc : 1 < e.curUndo
  · obtain ⟨g, a1, a2, a3⟩ := h2 hc
    obtain ⟨b1, b2, b3, b4⟩ := hb.undo hc a1
    obtain ⟨e1, c1, c2, c3, c4, c5, c6, c7, c8, c9, r, c10, c11⟩ := h.core.updateUndos (t := .undo) b4 (by
      intro x hx
      have : x ≠ g := by rintro rfl; exact b2 hx
      simp [this]) .undo
    obtain ⟨e2, l2, d1, d2⟩ := c2.afterEdit c3 (by rw [c7]; exact mem_ids_snoc c10 h.lastMem) (by rw [c7]; exact head_ne h.core.den h.lastMem c10 c11)
      (by rw [c6]; exact h.force) (fun _ => Or.inr (Or.inl c4)) n
    refine ⟨e2, l2, ?_, ?_⟩
    · rw [a3, c1]; exact d1
    · rw [UndoStack.undo, if_pos (by rw [h.core.cur]; exact hc), h.core.cur]
      rw [c4] at d2
      exact d2
  · rw [h1 (by omega), UndoStack.undo, if_neg (by rw [h.core.cur]; exact hc)]
    exact ⟨e, l, afterEdit_same h.committed n, h⟩

theorem Rest.redo_step (h : Rest tok e s l) (n : Nat) : ∃ e' l', input tok n e (.event .redo) = some e' ∧ Rest tok e' s.redo l' := by
  have hb : Book _ _ _ _ _ _ := h.core.ok
  obtain ⟨h1, h2⟩ := doRedo_spec h.core.ok
  have htl : s.texts.length = e.liveUndos.length := by rw [h.core.texts]; simp
  simp only [input, dispatch, Option.bind_eq_bind]
  by_cases hc : e.curUndo < e.liveUndos.length
  · obtain ⟨g, a1, a2, a3⟩ := h2 hc
    obtain ⟨b1, b2, b3, b4, b5⟩ := hb.redo a1
    obtain ⟨e1, c1, c2, c3, c4, c5, c6, c7, c8, c9, r, c10, c11⟩ := h.core.updateUndos (t := .redo) b5 (by
      intro x hx
      have : x ≠ g := by rintro rfl; exact b2 hx
      simp [this]) .redo
    obtain ⟨e2, l2, d1, d2⟩ := c2.afterEdit c3 (by rw [c7]; exact mem_ids_snoc c10 h.lastMem) (by rw [c7]; exact head_ne h.core.den h.lastMem c10 c11)
      (by rw [c6]; exact h.force) (fun _ => Or.inr (Or.inr c4)) n
    refine ⟨e2, l2, ?_, ?_⟩
    · rw [a3, c1]; exact d1
    · rw [UndoStack.redo, if_pos (by rw [h.core.cur, htl]; exact hc), h.core.cur]
      rw [c4] at d2
      exact d2
  · rw [h1 (by omega), UndoStack.redo, if_neg (by rw [h.core.cur, htl]; exact hc)]
    exact ⟨e, l, afterEdit_same h.committed n, h⟩

theorem Rest.view (h : Rest tok e s l) (n : Nat) : ∃ e' l', input tok n e (.event .view) = some e' ∧ Rest tok e' ⟨s.texts, s.cur, .other⟩ l' := by
  refine ⟨e.updateEditType, l, ?_, ?_⟩
  · simp only [input, dispatch, Option.bind_eq_bind, Option.bind_some]
    exact afterEdit_same (e := e.updateEditType) h.committed n
  · exact ⟨h.core.same e.revsInFlight .other e.thisEditType e.forceUndoGroup e.lastRevId e.pristineRevId .other, h.head, h.committed, rfl, h.force,
      h.this.symm, fun _ => Or.inl h.this⟩

theorem Rest.ack (h : Rest tok e s l) (hk : 0 < e.revsInFlight) (n : Nat) : ∃ e' l', input tok n e .ack = some e' ∧ Rest tok e' s l' := by
  obtain ⟨e1, l1, a1, a2, a3, a4, a5, a6, a7, a8, a9, a10⟩ := (h.same (e.revsInFlight - 1) e.pristineRevId).core.runGc h.head
  refine ⟨e1, l1, ?_, a2, a3, by rw [a4, a5]; exact h.committed, by rw [a6]; exact h.this, by rw [a8]; exact h.force, by rw [a7]; exact h.last, ?_⟩
  · simp only [input, decRevsInFlight]
    rw [if_neg (by omega)]
    exact a1
  · intro hc
    rw [a9, a10] at hc
    rw [a7]; exact h.redo hc

theorem Rest.save (h : Rest tok e s l) (n : Nat) : ∃ e' l', input tok n e .save = some e' ∧ Rest tok e' s l' := by
  refine ⟨_, l, ?_, h.same e.revsInFlight e.lastRevId⟩
  simp [input, setPristine, h.committed]

theorem Rest.reload (h : Rest tok e s l) {d : Delta α} (hd : d.Fits e.text) (n : Nat) :
    ∃ e' l', input tok n e (.reload d) = some e' ∧ Rest tok e' (s.push (d.result e.text) .other) l' := by
  have hcf : (e.forceUndoGroup || !e.thisEditType.breaksUndoGroup e.lastEditType) = false := by
    rw [h.force, h.this]; rfl
  obtain ⟨e1, l1, a1, a2, a3, a4, a5, a6, a7, a8, r, a9, a10⟩ :=
    h.core.addDelta (d := d) hd (by rw [hcf]; intro hc; cases hc) .other
  rw [hcf] at a2
  have a2' := a2.same e1.revsInFlight e1.thisEditType e1.lastEditType e1.forceUndoGroup e1.lastRevId r.revId .other
  obtain ⟨e2, l2, b1, b2⟩ := a2'.afterEdit a3 (by show e1.lastRevId ∈ _; rw [a6]; exact mem_ids_snoc a9 h.lastMem)
    (by show _ ≠ some e1.lastRevId; rw [a6]; exact head_ne h.core.den h.lastMem a9 a10) (by show e1.forceUndoGroup = _; rw [a8]; exact h.force)
    (by intro hc; exact absurd hc (by show ¬ e1.curUndo < e1.liveUndos.length; omega)) n
  refine ⟨e2, l2, ?_, ?_⟩
  · simp only [input, Editor.reload, a1, Option.bind_eq_bind, Option.bind_some, setPristine, head_snoc a9, Option.pure_def]
    exact b1
  · have : e1.thisEditType = .other := by rw [a7]; exact h.this
    simp only [this] at b2
    exact b2

theorem Rest.plugin (h : Rest tok e s l) {rev p : Nat} {d : Delta α} (hd : d.WF) {base : List α} (hb : e.engine.getRev tok rev = some (some base))
    (hl : base.length = d.baseLen) (n : Nat) :
    ∃ e' l', input tok n e (.plugin rev p none d) = some e' ∧ Rest tok e' (s.push e'.text .other) l' := by
  have hcf : (e.forceUndoGroup || !e.thisEditType.breaksUndoGroup e.lastEditType) = false := by
    rw [h.force, h.this]; rfl
  obtain ⟨_, c2⟩ := calculate_spec h.core.ok
  obtain ⟨e1, a1, a2, a3, a4, a5, a6, a7, a8, a9, a10, a11⟩ := h.core.openGroup .other
  obtain ⟨en, _, _, b1, _⟩ := C22_stale_edit a3.reach (by rw [a5]; exact hb) p (e1.undoGroupId - 1) d hd hl.symm
  obtain ⟨l1, d1, d2, r, d3, d4⟩ := a3.edit a4 hd b1 e1.lastEditType e1.thisEditType .other
  rw [amend_push] at d1
  rw [a5] at d3 d4
  obtain ⟨e2, l2, f1, f2⟩ := d1.afterEdit d2 (by show e1.lastRevId ∈ _; rw [a10]; exact mem_ids_snoc d3 h.lastMem)
    (by show _ ≠ some e1.lastRevId; rw [a10]; exact head_ne h.core.den h.lastMem d3 d4) (by show e1.forceUndoGroup = _; rw [a9]; exact h.force)
    (by intro hc; exact absurd hc (by show ¬ e1.curUndo < e1.liveUndos.length; omega)) n
  have ht : e1.thisEditType = .other := by rw [a7]; exact h.this
  have htext : e2.text = en.text := by
    have h1 := f2.core.current
    have h2 := d1.current
    have : (⟨(s.push en.text .other).texts, (s.push en.text .other).cur, e1.thisEditType⟩ : UndoStack α).current = (s.push en.text .other).current := rfl
    rw [this, h2] at h1
    simpa using h1.symm
  refine ⟨e2, l2, ?_, ?_⟩
  · simp only [input, applyPluginEdit, pluginGroup, c2 hcf, a1, Option.bind_eq_bind, Option.bind_some]
    rw [show e.undoGroupId = e1.undoGroupId - 1 by omega, b1]
    exact f1
  · rw [htext]
    simp only [ht] at f2
    exact f2

/-- The events of a recording. -/
theorem Core.events (s : UndoStack α) (lt : EditType) (events : List (Event α)) : ∀ (e : Editor α) (l : List (Chr α)) (edited : Bool),
    Core tok e (s.push e.text lt) l → (edited = true → HeadLive e) → e.curUndo = e.liveUndos.length → e.forceUndoGroup = true →
    e.engine.getHeadRevId = some e.lastRevId → PlayFits e.text events →
    ∃ e' l', events.foldlM (playStep tok) e = some e' ∧ Core tok e' (s.push (playText e.text events) lt) l' ∧
      ((edited || events.any Event.edits) = true → HeadLive e') ∧ e'.curUndo = e'.liveUndos.length ∧
      e'.engine.getHeadRevId = some e'.lastRevId := by
  induction events with
  | nil =>
    intro e l edited h1 h2 h3 h4 h5 _
    exact ⟨e, l, rfl, h1, fun hh => h2 (by simpa using hh), h3, h5⟩
  | cons ev events ih =>
    intro e l edited h1 h2 h3 h4 h5 h6
    have hskip : ∀ e1, e.dispatch tok ev = some e1 → Core tok e1 (s.push e1.text lt) l → (edited = true → HeadLive e1) → e1.text = e.text →
        e1.curUndo = e1.liveUndos.length → e1.forceUndoGroup = true → e1.engine.getHeadRevId = some e1.lastRevId → ev.edits = false →
        PlayFits e.text events → playText e.text (ev :: events) = playText e.text events →
        ∃ e' l', (ev :: events).foldlM (playStep tok) e = some e' ∧ Core tok e' (s.push (playText e.text (ev :: events)) lt) l' ∧
          ((edited || (ev :: events).any Event.edits) = true → HeadLive e') ∧ e'.curUndo = e'.liveUndos.length ∧
          e'.engine.getHeadRevId = some e'.lastRevId := by
      intro e1 k1 k2 k3 k4 k5 k6 k7 k8 k9 k10
      obtain ⟨e2, l2, b1, b2, b3, b4, b5⟩ := ih e1 l edited k2 k3 k5 k6 k7 (by rw [k4]; exact k9)
      refine ⟨e2, l2, ?_, ?_, ?_, b4, b5⟩
      · simp only [List.foldlM_cons, Option.bind_eq_bind, playStep, k1, Option.bind_some, commit_same k7, Option.pure_def]
        exact b1
      · rw [k10, ← k4]; exact b2
      · intro hh; apply b3; simpa [k8] using hh
    cases ev with
    | undo => exact absurd h6 (by simp [PlayFits])
    | redo => exact absurd h6 (by simp [PlayFits])
    | view =>
      exact hskip e.updateEditType rfl
        (h1.same e.revsInFlight .other e.thisEditType e.forceUndoGroup e.lastRevId e.pristineRevId _) h2 rfl h3 h4 h5 rfl h6 rfl
    | buffer t d =>
      cases d with
      | none => exact hskip e rfl h1 h2 rfl h3 h4 h5 rfl h6 rfl
      | some d =>
        have hd : d.Fits e.text := h6.1
        obtain ⟨e1, l1, a1, a2, a3, a4, a5, a6, a7, a8, r, a9, a10⟩ :=
          (h1.same e.revsInFlight (t.before.getD e.thisEditType) e.lastEditType e.forceUndoGroup e.lastRevId e.pristineRevId lt).addDelta
            (d := d) hd (fun _ => h3) lt
        have hforce : ∀ x : Bool, (e.forceUndoGroup || x) = true := by intro x; rw [h4]; rfl
        simp only [hforce, nextStack, if_true] at a2
        rw [show (⟨(s.push e.text lt).texts, (s.push e.text lt).cur, lt⟩ : UndoStack α) = s.push e.text lt from rfl, amend_push] at a2
        have a2' := a2.same e1.revsInFlight (t.after.getD e1.thisEditType) e1.lastEditType e1.forceUndoGroup e1.lastRevId e1.pristineRevId lt
        have hm : e.lastRevId ∈ ids e.engine.revs := head_mem h5
        obtain ⟨x, hx⟩ := a2'.commit (by show e1.lastRevId ∈ _; rw [a6]; exact mem_ids_snoc a9 hm) (head_snoc a9)
          (by show r.revId ≠ e1.lastRevId
              rw [a6, a10]
              intro hc
              exact h1.den.fresh_id (hc ▸ hm))
        obtain ⟨e3, l3, b1, b2, b3, b4, b5⟩ := ih
          { e1 with thisEditType := t.after.getD e1.thisEditType, lastRevId := r.revId } l1 true
          (by
            have a5' : e1.text = d.result e.text := a5
            rw [← a5'] at a2
            exact a2.same e1.revsInFlight (t.after.getD e1.thisEditType) e1.lastEditType e1.forceUndoGroup r.revId e1.pristineRevId lt)
          (fun _ => a3) a4 (by show e1.forceUndoGroup = true; rw [a8]; exact h4) (head_snoc a9) (by show PlayFits e1.text events; rw [a5]; exact h6.2)
        refine ⟨e3, l3, ?_, ?_, fun _ => b3 rfl, b4, b5⟩
        · simp only [List.foldlM_cons, Option.bind_eq_bind, playStep, dispatch, Editor.command]
          have ha : Editor.addDelta tok (e.setType t.before) d = some e1 := by rw [setType_eq]; exact a1
          rw [ha]
          simp only [Option.bind_some, Option.pure_def, setType_eq]
          have hx' : Editor.commitDelta tok { e1 with thisEditType := t.after.getD e1.thisEditType } = _ := hx
          rw [hx']
          exact b1
        · have : playText e.text (.buffer t (some d) :: events) = playText e1.text events := by rw [a5]; rfl
          rw [this]; exact b2

theorem Rest.play (h : Rest tok e s l) {events : List (Event α)} (hf : PlayFits e.text events) (he : events.any Event.edits = true) (n : Nat) :
    ∃ e' l', input tok n e (.play events) = some e' ∧ Rest tok e' (s.push (playText e.text events) .other) l' := by
  have h0 := h.core.same e.revsInFlight .other e.thisEditType e.forceUndoGroup e.lastRevId e.pristineRevId s.last
  have hcf : (e.updateEditType.forceUndoGroup || !e.updateEditType.thisEditType.breaksUndoGroup e.updateEditType.lastEditType) = false := by
    show (e.forceUndoGroup || !EditType.other.breaksUndoGroup e.thisEditType) = false
    rw [h.force, h.this]; rfl
  obtain ⟨_, c2⟩ := calculate_spec (e := e.updateEditType) h0.ok
  obtain ⟨e1, a1, a2, a3, a4, a5, a6, a7, a8, a9, a10, a11⟩ := h0.openGroup .other
  have a6' : e1.text = e.text := a6
  have hm1 : e1.engine.getHeadRevId = some e1.lastRevId := by rw [a5, a10]; exact h.committed
  obtain ⟨e2, l2, b1, b2, b3, b4, b5⟩ := Core.events (tok := tok) s .other events (e1.setForceUndoGroup true) l false
    (by
      have := a3.same e1.revsInFlight e1.thisEditType e1.lastEditType true e1.lastRevId e1.pristineRevId .other
      show Core tok _ (s.push e1.text .other) l
      rw [a6']; exact this) (by intro hc; cases hc) a4 rfl hm1 (by show PlayFits e1.text events; rw [a6']; exact hf)
  have hh : HeadLive e2 := b3 (by simpa using he)
  obtain ⟨e3, l3, d1, d2, d3, d4, d5, d6, d7, d8, d9, d10⟩ :=
    (b2.same e2.revsInFlight .other e2.thisEditType false e2.lastRevId e2.pristineRevId .other).updatePlugins hh n .other
  have hc3 : e3.engine.getHeadRevId = some e3.lastRevId := by rw [d4, d5]; exact b5
  refine ⟨e3, l3, ?_, ?_, d3, hc3, d6, d8, d7.symm, ?_⟩
  · simp only [input, Editor.play, c2 hcf, Option.bind_eq_bind]
    have : e.updateEditType.openGroup = some (e.updateEditType.undoGroupId, e1) := a1
    rw [this]
    simp only [Option.bind_some, b1]
    have : Editor.updatePlugins (e2.setForceUndoGroup false).updateEditType n = some e3 := d1
    rw [this]
    exact afterEdit_same hc3 n
  · have : (e1.setForceUndoGroup true).text = e.text := a6
    rw [this] at d2
    exact d2
  · intro _; left; exact d7

theorem Rest.input (h : Rest tok e s l) {i : Input α} (hi : Legal tok e i) (n : Nat) :
    ∃ e' l', input tok n e i = some e' ∧ Rest tok e' (stackStep e.text e'.text s i) l' := by
  cases i with
  | event ev =>
    cases ev with
    | buffer t d =>
      cases d with
      | none => exact ⟨e, l, afterEdit_same h.committed n, h⟩
      | some d => exact h.command hi.1 hi.2 n
    | undo => exact h.undo n
    | redo => exact h.redo_step n
    | view => exact h.view n
  | play evs => exact h.play hi.1 hi.2 n
  | plugin rev p g d =>
    obtain ⟨rfl, hd, base, hb, hl⟩ := hi
    exact h.plugin hd hb hl n
  | ack => exact h.ack hi n
  | save => exact h.save n
  | reload d => exact h.reload hi n

theorem withText_rest {text : List α} (h : withText tok text = some e) : ∃ l, Rest tok e (.start text) l := by
  have hok := withText_ok h
  simp only [withText, Option.bind_eq_bind, Option.bind_eq_some_iff] at h
  obtain ⟨en, h1, rev, h2, h⟩ := h
  have hreach := new_reach tok text h1
  obtain ⟨l, hl⟩ := hreach.den
  cases h
  have hk : en.text = text ∧ en.undoneGroups = [] ∧ (∀ r ∈ en.revs, ∀ g, r.group? = some g → g = 0) := by
    rw [Engine.new] at h1
    obtain ⟨D, c1, c2⟩ := Engine.empty_eq (α := α)
    simp only [c2, Option.bind_eq_bind, Option.bind_some] at h1
    split at h1
    · rename_i hemp
      cases h1
      refine ⟨by simpa using hemp.symm, rfl, ?_⟩
      intro r hr g hg
      simp at hr; subst hr
      cases hg
    · simp only [Option.bind_eq_some_iff] at h1
      obtain ⟨first, k0, d, h3, h4⟩ := h1
      obtain ⟨d', h5, h6, h7⟩ := C13_simple_edit [] text 0 0 (Nat.le_refl _) (Nat.le_refl _)
      rw [show ([] : List α).length = 0 from rfl, h3] at h5
      cases h5
      have hbl : d.baseLen = 0 := by
        rename_i hemp
        have : text ≠ [] := by simpa using hemp
        simp [Delta.simpleEdit, DeltaBuilder.replace, DeltaBuilder.delete, DeltaBuilder.new, DeltaBuilder.build, this] at h3
        rw [← h3]
      have hr0 : Engine.Reach tok (⟨(1, 0), 1, [], [], D, [], [⟨⟨0, 0, 0⟩, 0, .undo [] D⟩]⟩ : Engine α) := .empty c2
      have hd0 := den_empty (α := α) D c1 (1, 0)
      obtain ⟨en', m1, m2, _⟩ := C18_head_edit hr0 k0 0 0 d h6 hbl
      obtain ⟨pre, r, post, a1, a2, a3⟩ := hd0.edit_inv m1
      obtain ⟨en2, l', items, head', b1, b2, b3, b4, _, b5, b6, b7, b8, ⟨r', b9, b10, b11⟩, _⟩ := hd0.edit_full a1 a2 0 0 h6 a3
      rw [m1] at b1; cases b1
      simp only [Engine.editRev, m1, Option.bind_eq_bind, Option.bind_some] at h4
      cases h4
      refine ⟨?_, b7, ?_⟩
      · have := m2 rfl
        replace this : d.apply [] = some en.text := this
        rw [h7] at this
        simpa using this.symm
      · intro r hr g hg
        rw [b9] at hr
        simp only [List.mem_append, List.mem_singleton] at hr
        rcases hr with rfl | rfl
        · cases hg
        · rw [b11] at hg; cases hg; rfl
  obtain ⟨k1, k2, k3⟩ := hk
  refine ⟨l, ⟨hok, hreach, hl, rfl, ?_, rfl, ?_, ?_, ?_, ?_⟩, ?_, h2, rfl, rfl, rfl, ?_⟩
  · show [text] = [visibleText ([] ++ []) l]
    rw [← k1, hl.text_visible, k2]
    rfl
  · intro g _
    show g ∈ en.undoneGroups ↔ g ∈ []
    rw [k2]
  · show ∀ g ∈ en.undoneGroups, _
    rw [k2]; simp
  · intro r hr g hg
    rw [k3 r hr g hg]
    exact Or.inl (List.mem_singleton.2 rfl)
  · show (en.revs.filterMap Revision.group?).Pairwise (· ≤ ·)
    have : ∀ g ∈ en.revs.filterMap Revision.group?, g = 0 := by
      intro g hg
      obtain ⟨r, h1, h2⟩ := List.mem_filterMap.1 hg
      exact k3 r h1 g h2
    generalize en.revs.filterMap Revision.group? = L at this
    rw [List.eq_replicate_of_mem this]
    exact List.pairwise_replicate.2 (Or.inr (Nat.le_refl _))
  · intro r hr g hg
    rw [k3 r (List.mem_of_getLast? hr) g hg]
    exact List.mem_singleton.2 rfl
  · intro hc
    exact Or.inl rfl

theorem Session.rest {n : Nat} (h : Session tok n e s) : ∃ l, Rest tok e s l := by
  induction h with
  | start h => exact withText_rest h
  | step i _ hi hin ih =>
    obtain ⟨l, hl⟩ := ih
    obtain ⟨e1, l1, a1, a2⟩ := hl.input hi n
    rw [hin] at a1; cases a1
    exact ⟨l1, a2⟩

end Editor

end Xi
