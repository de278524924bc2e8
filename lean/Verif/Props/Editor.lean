import Verif.Core.EditorSave

/-!
# The undo history of an editor (core-lib/src/editor.rs, event_context.rs): C29, C30, C71
-/

namespace Xi

open Editor

variable {α : Type} {tok : RevId → Nat} {n : Nat} {e e' : Editor α} {s : UndoStack α}

/-! ### Examples -/

/-- Insert `xs` at `pos` into a text of length `len`. -/
def exIns (len pos : Nat) (xs : List Nat) : Delta Nat :=
  ⟨(if pos = 0 then [] else [.copy 0 pos]) ++ [.insert xs] ++ (if pos = len then [] else [.copy pos len]), len⟩

/-- Delete `[a, b)` from a text of length `len`. -/
def exDel (len a b : Nat) : Delta Nat := ⟨(if a = 0 then [] else [.copy 0 a]) ++ (if b = len then [] else [.copy b len]), len⟩

/-- A command without a type, such as pasting. -/
def exType (len pos : Nat) (xs : List Nat) : Input Nat := .event (.buffer ⟨none, none⟩ (some (exIns len pos xs)))

/-- Typing. -/
def exChars (len pos : Nat) (xs : List Nat) : Input Nat := .event (.buffer ⟨some .insertChars, none⟩ (some (exIns len pos xs)))

/-- Deleting. -/
def exCut (len a b : Nat) : Input Nat := .event (.buffer ⟨none, none⟩ (some (exDel len a b)))

/-- An editor with a text, after some inputs. -/
def exRun (n : Nat) (text : List Nat) (l : List (Input Nat)) : Option (Editor Nat) := do
  l.foldlM (input exTok n) (← withText exTok text)

/-- `Legal` for the examples. -/
def exLegal (e : Editor Nat) : Input Nat → Bool
  | .event (.buffer t (some d)) => (t.before == none || t.before == some .insertChars) && t.after == none && decide d.WF && d.baseLen == e.text.length
  | .event _ => true
  | .ack => decide (0 < e.revsInFlight)
  | .save => true
  | _ => false

/-- `exRun` for legal inputs. -/
def exLegalRun (n : Nat) (e : Editor Nat) (l : List (Input Nat)) : Option (Editor Nat) :=
  l.foldlM (fun e i => if exLegal e i then input exTok n e i else none) e

theorem exLegal_legal {e : Editor Nat} {i : Input Nat} (h : exLegal e i = true) : Legal exTok e i ∧ (i = .save ∨ i.Unsaved) := by
  cases i with
  | event ev =>
    cases ev with
    | buffer t d =>
      cases d with
      | none => exact ⟨trivial, Or.inr trivial⟩
      | some d =>
        simp only [exLegal, Bool.and_eq_true, Bool.or_eq_true, beq_iff_eq, decide_eq_true_eq] at h
        obtain ⟨⟨⟨h1, h2⟩, h3⟩, h4⟩ := h
        refine ⟨⟨?_, h3, h4⟩, Or.inr h3⟩
        unfold CommandType.Plain
        rw [h2]
        rcases h1 with h1 | h1 <;> rw [h1] <;> simp
    | undo => exact ⟨trivial, Or.inr trivial⟩
    | redo => exact ⟨trivial, Or.inr trivial⟩
    | view => exact ⟨trivial, Or.inr trivial⟩
  | ack => exact ⟨by simpa [exLegal, Legal] using h, Or.inr trivial⟩
  | save => exact ⟨trivial, Or.inl rfl⟩
  | play _ => cases h
  | plugin _ _ _ _ => cases h
  | reload _ => cases h

theorem exLegalRun_session {e e' : Editor Nat} {s : UndoStack Nat} {l : List (Input Nat)} (h : Session exTok n e s)
    (hr : exLegalRun n e l = some e') : ∃ s', Session exTok n e' s' := by
  induction l generalizing e s with
  | nil => cases hr; exact ⟨s, h⟩
  | cons i l ih =>
    simp only [exLegalRun, List.foldlM_cons, Option.bind_eq_bind, Option.bind_eq_some_iff] at hr
    obtain ⟨e1, h1, h2⟩ := hr
    split at h1
    · rename_i hl
      exact ih (.step i h (exLegal_legal hl).1 h1) h2
    · cases h1

theorem exLegalRun_unsaved {e e1 e' : Editor Nat} {l : List (Input Nat)} (h : Unsaved exTok e e1)
    (hs : l.all (fun i => match i with | .save => false | _ => true) = true) (hr : exLegalRun n e1 l = some e') : Unsaved exTok e e' := by
  induction l generalizing e1 with
  | nil => cases hr; exact h
  | cons i l ih =>
    simp only [exLegalRun, List.foldlM_cons, Option.bind_eq_bind, Option.bind_eq_some_iff] at hr
    obtain ⟨e2, h1, h2⟩ := hr
    rw [List.all_cons, Bool.and_eq_true] at hs
    split at h1
    · rename_i hl
      refine ih (.step n i h ?_ h1) hs.2 h2
      rcases (exLegal_legal hl).2 with hi | hi
      · rw [hi] at hs; exact absurd hs.1 (by simp)
      · exact hi
    · cases h1

/-! ### C29: the bookkeeping, whatever the inputs -/

/-- **C29.** At most 20 undo steps are kept, and the position among them is never before the first or past the last one. -/
theorem C29_bounded (h : Run tok e) : 1 ≤ e.curUndo ∧ e.curUndo ≤ e.liveUndos.length ∧ e.liveUndos.length ≤ 20 := by
  have hb : Book _ _ _ _ _ _ := h.ok
  exact ⟨hb.pos, hb.le, hb.max⟩

/-- **C29.** Every group there ever was is in exactly one place: it can be undone or redone, it waits for collection, or it has been
collected.  So it is collected at most once, and never while it can still be undone or redone.  The live groups are in the order of
their creation. -/
theorem C29_one_place (h : Run tok e) :
    (e.collected ++ e.gcUndos ++ e.liveUndos).Perm (List.range e.undoGroupId) ∧
    (e.collected ++ e.gcUndos).Nodup ∧ (∀ g ∈ e.liveUndos, g ∉ e.collected ∧ g ∉ e.gcUndos) ∧ e.liveUndos.Pairwise (· < ·) := by
  have hb : Book _ _ _ _ _ _ := h.ok
  exact ⟨hb.all, (List.nodup_append.1 hb.nodup_all).1, fun g hg => ⟨hb.disjoint_done (Or.inl hg), hb.disjoint hg⟩, hb.sorted⟩

/-- **C29.** The groups that the editor has undone are the live ones after the current position, and collected ones only until they are
collected. -/
theorem C29_undone_groups (h : Run tok e) (g : Nat) : (g ∈ e.liveUndos → (g ∈ e.undos ↔ g ∈ e.liveUndos.drop e.curUndo)) ∧
    (g ∈ e.undos → g ∈ e.liveUndos ∨ g ∈ e.gcUndos) := by
  have hb : Book _ _ _ _ _ _ := h.ok
  refine ⟨fun hg => ⟨fun h1 => ?_, hb.undone g⟩, fun h1 => ?_⟩
  · rcases hb.known g h1 with h2 | h2
    · exact h2
    · exact absurd h2 (hb.disjoint hg)
  · rcases hb.known g h1 with h2 | h2
    · exact Or.inl (List.mem_of_mem_drop h2)
    · exact Or.inr h2

/-- **C29.** Undo moves exactly one step back, and does nothing at the first one; it does not fail unless the engine does. -/
theorem C29_undo_step (h : Run tok e) :
    (e.curUndo = 1 → e.doUndo = some e) ∧
    (1 < e.curUndo → ∃ g, e.liveUndos[e.curUndo - 1]? = some g ∧ (e.engine.undo (e.undos ++ [g]) ≠ none → e.doUndo ≠ none) ∧
      ∀ e', e.doUndo = some e' → e'.curUndo = e.curUndo - 1 ∧ e'.liveUndos = e.liveUndos ∧ e'.undos = e.undos ++ [g] ∧
        e'.gcUndos = e.gcUndos ∧ e'.collected = e.collected ∧ e.engine.undo e'.undos = some e'.engine ∧ e'.text = e'.engine.text) := by
  obtain ⟨h1, h2⟩ := doUndo_spec h.ok
  refine ⟨fun hc => h1 (by omega), fun hc => ?_⟩
  obtain ⟨g, a1, _, a2⟩ := h2 hc
  refine ⟨g, a1, ?_, ?_⟩
  · intro hu
    obtain ⟨en, hen⟩ := Option.ne_none_iff_exists'.1 hu
    rw [a2]; simp [updateUndos, hen]
  · intro e' he'
    rw [a2] at he'
    simp only [updateUndos, Option.bind_eq_bind, Option.bind_eq_some_iff] at he'
    obtain ⟨en, k1, k2⟩ := he'
    cases k2
    exact ⟨rfl, rfl, rfl, rfl, rfl, k1, rfl⟩

/-- **C29.** Redo moves exactly one step forward, and does nothing at the last one. -/
theorem C29_redo_step (h : Run tok e) :
    (e.curUndo = e.liveUndos.length → e.doRedo = some e) ∧
    (e.curUndo < e.liveUndos.length → ∃ g, e.liveUndos[e.curUndo]? = some g ∧
      (e.engine.undo (e.undos.filter (fun x => x != g)) ≠ none → e.doRedo ≠ none) ∧
      ∀ e', e.doRedo = some e' → e'.curUndo = e.curUndo + 1 ∧ e'.liveUndos = e.liveUndos ∧ (∀ x, x ∈ e'.undos ↔ x ∈ e.undos ∧ x ≠ g) ∧
        e'.gcUndos = e.gcUndos ∧ e'.collected = e.collected ∧ e.engine.undo e'.undos = some e'.engine ∧ e'.text = e'.engine.text) := by
  obtain ⟨h1, h2⟩ := doRedo_spec h.ok
  refine ⟨fun hc => h1 (by omega), fun hc => ?_⟩
  obtain ⟨g, a1, _, a2⟩ := h2 hc
  refine ⟨g, a1, ?_, ?_⟩
  · intro hu
    obtain ⟨en, hen⟩ := Option.ne_none_iff_exists'.1 hu
    rw [a2]; simp [updateUndos, hen]
  · intro e' he'
    rw [a2] at he'
    simp only [updateUndos, Option.bind_eq_bind, Option.bind_eq_some_iff] at he'
    obtain ⟨en, k1, k2⟩ := he'
    cases k2
    exact ⟨rfl, rfl, by simp, rfl, rfl, k1, rfl⟩

/-- **C29.** A new group comes after the current position: the groups that could be redone are no longer live, they wait for
collection, and so does the oldest group if there would be more than 20. -/
theorem C29_new_branch (h : Run tok e) : ∃ e', e.openGroup = some (e.undoGroupId, e') ∧ e'.undoGroupId = e.undoGroupId + 1 ∧
    e'.curUndo = e'.liveUndos.length ∧ e'.collected = e.collected ∧ e'.undos = e.undos ∧ e'.engine = e.engine ∧
    (e.curUndo < 20 → e'.liveUndos = e.liveUndos.take e.curUndo ++ [e.undoGroupId] ∧ e'.gcUndos = e.gcUndos ++ e.liveUndos.drop e.curUndo) ∧
    (e.curUndo = 20 → ∃ oldest rest, e.liveUndos = oldest :: rest ∧ e'.liveUndos = rest ++ [e.undoGroupId] ∧ e'.gcUndos = e.gcUndos ++ [oldest]) := by
  have hb : Book _ _ _ _ _ _ := h.ok
  obtain ⟨e1, b1, b2, b3, b4, b5, b6, b7⟩ := openGroup_spec h.ok
  refine ⟨e1, b1, b6, b4, by rw [b7], by rw [b7], by rw [b7], ?_, ?_⟩
  · intro hc
    have : e.curUndo + 1 - maxUndos = 0 := by show e.curUndo + 1 - 20 = 0; omega
    rw [this] at b3 b5
    exact ⟨by simpa using b3, by simpa using b5⟩
  · intro hc
    have h1 : e.curUndo + 1 - maxUndos = 1 := by show e.curUndo + 1 - 20 = 1; omega
    have h2 : e.liveUndos.length ≤ 20 := hb.max
    have h3 := hb.le
    have hlen : e.liveUndos.length = e.curUndo := by omega
    cases hl : e.liveUndos with
    | nil => rw [hl] at hlen; simp at hlen; omega
    | cons x xs =>
      rw [h1, ← hlen, List.take_length, hl] at b3 b5
      refine ⟨x, xs, rfl, by simpa using b3, ?_⟩
      rw [← hl, List.drop_length, hl] at b5
      simpa using b5

/-- Twice undone, then a new group. -/
example : ∃ e, exRun 1 [1, 2, 3] [exType 3 3 [4], exType 4 4 [5], exType 5 5 [6], .event .undo, .event .undo, exType 4 0 [7]] = some e ∧
    e.liveUndos = [0, 1, 4] ∧ e.curUndo = 3 ∧ e.gcUndos = [2, 3] ∧ e.undos = [3, 2] ∧ e.text = [7, 1, 2, 3, 4] := by
  have h : (exRun 1 [1, 2, 3] [exType 3 3 [4], exType 4 4 [5], exType 5 5 [6], .event .undo, .event .undo, exType 4 0 [7]]).map
      (fun e => (e.liveUndos, e.curUndo, e.gcUndos, e.undos, e.text)) = some ([0, 1, 4], 3, [2, 3], [3, 2], [7, 1, 2, 3, 4]) := by decide +kernel
  obtain ⟨e, h1, h2⟩ := Option.map_eq_some_iff.1 h
  simp only [Prod.mk.injEq] at h2
  exact ⟨e, h1, h2.1, h2.2.1, h2.2.2.1, h2.2.2.2.1, h2.2.2.2.2⟩

theorem exRun_run {n : Nat} {text : List Nat} {l : List (Input Nat)} {e : Editor Nat} (h : exRun n text l = some e) : Run exTok e := by
  simp only [exRun, Option.bind_eq_bind, Option.bind_eq_some_iff] at h
  obtain ⟨e0, h1, h2⟩ := h
  have h0 : Run exTok e0 := .start h1
  clear h1
  induction l generalizing e0 with
  | nil => cases h2; exact h0
  | cons i l ih =>
    simp only [List.foldlM_cons, Option.bind_eq_bind, Option.bind_eq_some_iff] at h2
    obtain ⟨e1, k1, k2⟩ := h2
    exact ih e1 k2 (.step n i h0 k1)

/-- 25 groups: the last 20 are live, the others have been collected. -/
example : ∃ e : Editor Nat, Run exTok e ∧ e.liveUndos.length = 20 ∧ e.collected = [0, 1, 2, 3, 4, 5] := by
  have h : (exRun 0 [] ((List.range 25).map fun i => exType i i [i])).map (fun e => (e.liveUndos.length, e.collected)) =
      some (20, [0, 1, 2, 3, 4, 5]) := by decide +kernel
  obtain ⟨e, h1, h2⟩ := Option.map_eq_some_iff.1 h
  simp only [Prod.mk.injEq] at h2
  exact ⟨e, exRun_run h1, h2.1, h2.2⟩

/-! ### C71: undo and redo show the texts they should -/

/-- **C71 (partial).** With inputs as `Legal` asks, the text is the one that the stack of texts shows, the engine is in a state in which
C18 to C26 hold, and the editor keeps as many steps as the stack.  Missing: plugins that name the group of their edit, recordings that
contain undo or redo or edit nothing, and plugin edits that are rejected; see the refutations below. -/
theorem C71_stack_partial (h : Session tok n e s) : s.current = some e.text ∧ Engine.Reach tok e.engine ∧ e.text = e.engine.text ∧
    s.cur = e.curUndo ∧ s.texts.length = e.liveUndos.length := by
  obtain ⟨l, hl⟩ := h.rest
  exact ⟨hl.core.current, hl.core.reach, hl.core.text, hl.core.cur, by rw [hl.core.texts]; simp⟩

/-- **C71 (partial).** Such inputs never make the editor panic. -/
theorem C71_no_panic_partial (h : Session tok n e s) {i : Input α} (hi : Legal tok e i) : ∃ e', input tok n e i = some e' := by
  obtain ⟨l, hl⟩ := h.rest
  obtain ⟨e', _, h1, _⟩ := hl.input hi n
  exact ⟨e', h1⟩

/-- An editor can be opened with any text. -/
theorem C71_open (tok : RevId → Nat) (text : List α) : ∃ e, withText tok text = some e := by
  have hn : ∃ en, Engine.new tok text = some en := by
    rw [Engine.new]
    obtain ⟨D, h1, h2⟩ := Engine.empty_eq (α := α)
    simp only [h2, Option.bind_eq_bind, Option.bind_some]
    split
    · exact ⟨_, rfl⟩
    · rename_i hemp
      have hne : text ≠ [] := by simpa using hemp
      obtain ⟨d, h3, h4, _⟩ := C13_simple_edit ([] : List α) text 0 0 (Nat.le_refl _) (Nat.le_refl _)
      rw [show ([] : List α).length = 0 from rfl] at h3
      have hbl : d.baseLen = 0 := by
        have h5 := h3
        simp [Delta.simpleEdit, DeltaBuilder.replace, DeltaBuilder.delete, DeltaBuilder.new, DeltaBuilder.build, hne] at h5
        rw [← h5]
      obtain ⟨en, k1, _⟩ := C18_head_edit (tok := tok) (.empty h2) (id := ⟨0, 0, 0⟩) rfl 0 0 d h4 hbl
      refine ⟨en, ?_⟩
      simp only [h3, Option.bind_some, Engine.getHeadRevId, List.getLast?_singleton, Option.map_some, Engine.editRev, k1, Option.bind_eq_bind]
  obtain ⟨en, hen⟩ := hn
  obtain ⟨l, hl⟩ := (new_reach tok text hen).den
  obtain ⟨pre, r, _, hr⟩ := hl.last
  exact ⟨_, by simp only [withText, hen, Option.bind_eq_bind, Option.bind_some, Engine.getHeadRevId, hr, Option.map_some]; rfl⟩

/-- The stack of texts has at most 20 of them. -/
theorem C71_stack_bounded (h : Session tok n e s) : 1 ≤ s.cur ∧ s.cur ≤ s.texts.length ∧ s.texts.length ≤ 20 := by
  obtain ⟨l, hl⟩ := h.rest
  have hb : Book _ _ _ _ _ _ := hl.core.ok
  have : s.texts.length = e.liveUndos.length := by rw [hl.core.texts]; simp
  rw [hl.core.cur, this]
  exact ⟨hb.pos, hb.le, hb.max⟩

theorem push_undo_current (s : UndoStack α) (h1 : 1 ≤ s.cur) (h2 : s.cur ≤ s.texts.length) (x : List α) (t : EditType) :
    (s.push x t).undo.current = s.current ∧ (s.push x t).current = some x := by
  have hlen : (s.texts.take s.cur ++ [x]).length = s.cur + 1 := by simp; omega
  have hc : (s.push x t).cur = s.cur + 1 - (s.cur + 1 - 20) := by
    show ((s.texts.take s.cur ++ [x]).drop ((s.texts.take s.cur ++ [x]).length - 20)).length = _
    rw [List.length_drop, hlen]
  have hget : ∀ i, (s.push x t).texts[i]? = (s.texts.take s.cur ++ [x])[s.cur + 1 - 20 + i]? := by
    intro i
    show ((s.texts.take s.cur ++ [x]).drop ((s.texts.take s.cur ++ [x]).length - 20))[i]? = _
    rw [List.getElem?_drop, hlen]
  have hl : (s.texts.take s.cur).length = s.cur := by simp; omega
  constructor
  · rw [UndoStack.undo, if_pos (by omega), UndoStack.current, hget, UndoStack.current]
    show (s.texts.take s.cur ++ [x])[s.cur + 1 - 20 + ((s.push x t).cur - 1 - 1)]? = _
    rw [hc, show s.cur + 1 - 20 + (s.cur + 1 - (s.cur + 1 - 20) - 1 - 1) = s.cur - 1 by omega,
      List.getElem?_append_left (by rw [hl]; omega), List.getElem?_take_of_lt (by omega)]
  · rw [UndoStack.current, hget, hc, show s.cur + 1 - 20 + (s.cur + 1 - (s.cur + 1 - 20) - 1) = s.cur by omega,
      List.getElem?_append_right (by rw [hl]; omega), hl]
    simp

theorem undo_redo_current (s : UndoStack α) (h : 1 < s.cur) (h2 : s.cur ≤ s.texts.length) : s.undo.redo.current = s.current := by
  rw [UndoStack.undo, if_pos h, UndoStack.redo, if_pos (by show s.cur - 1 < s.texts.length; omega)]
  show s.texts[s.cur - 1 + 1 - 1]? = _
  rw [show s.cur - 1 + 1 - 1 = s.cur - 1 by omega]
  rfl

/-- **C71 (partial).** Undoing a command that was a step of its own brings back the text before it, and redoing it the text after it. -/
theorem C71_undo_restores_partial (h : Session tok n e s) {t : CommandType} {d : Delta α}
    (hl : Legal tok e (.event (.buffer t (some d)))) (hnew : t.first.breaksUndoGroup e.lastEditType = true) :
    ∃ e1 e2 e3, input tok n e (.event (.buffer t (some d))) = some e1 ∧ input tok n e1 (.event .undo) = some e2 ∧
      input tok n e2 (.event .redo) = some e3 ∧ e1.text = d.result e.text ∧ e2.text = e.text ∧ e3.text = d.result e.text := by
  obtain ⟨b1, b2, _⟩ := C71_stack_bounded h
  obtain ⟨l, hr⟩ := h.rest
  obtain ⟨e1, h1⟩ := C71_no_panic_partial h hl
  have s1 := Session.step _ h hl h1
  obtain ⟨e2, h2⟩ := C71_no_panic_partial s1 (i := .event .undo) trivial
  have s2 := Session.step (.event .undo) s1 trivial h2
  obtain ⟨e3, h3⟩ := C71_no_panic_partial s2 (i := .event .redo) trivial
  have s3 := Session.step (.event .redo) s2 trivial h3
  refine ⟨e1, e2, e3, h1, h2, h3, ?_⟩
  have k0 := (C71_stack_partial h).1
  have k1 := (C71_stack_partial s1).1
  have k2 := (C71_stack_partial s2).1
  have k3 := (C71_stack_partial s3).1
  obtain ⟨c1, c2, _⟩ := C71_stack_bounded s1
  simp only [stackStep] at k1 k2 k3 c1 c2
  have hcmd : s.command t.first (d.result e.text) t.final = s.push (d.result e.text) t.final := by
    rw [UndoStack.command, if_neg]
    rw [hr.last, ← continues_iff, hnew]; simp
  rw [hcmd] at k1 k2 k3 c1 c2
  obtain ⟨p1, p2⟩ := push_undo_current s b1 b2 (d.result e.text) t.final
  have hcur : 1 < (s.push (d.result e.text) t.final).cur := by
    show 1 < ((s.texts.take s.cur ++ [d.result e.text]).drop _).length
    simp only [List.length_drop, List.length_append, List.length_take, List.length_singleton]; omega
  rw [p2] at k1
  rw [p1, k0] at k2
  rw [undo_redo_current _ hcur c2, p2] at k3
  exact ⟨by simpa using k1.symm, by simpa using k2.symm, by simpa using k3.symm⟩

/-- A session with typing in one group, undo, redo, another branch and acknowledgements. -/
example : ∃ e s, Session exTok 1 e s ∧ e.text = [1, 2, 3, 4, 5] ∧ e.liveUndos = [0, 1, 3] ∧ e.collected = [2] := by
  have h : ((withText exTok [1, 2, 3]).bind fun e0 => exLegalRun 1 e0
      [exChars 3 3 [4], exChars 4 4 [5], exType 5 0 [6], .event .undo, .ack, .ack, .ack, exType 5 0 [7], .event .undo, .ack, .ack, .ack]).map
      (fun e => (e.text, e.liveUndos, e.collected)) = some ([1, 2, 3, 4, 5], [0, 1, 3], [2]) := by decide +kernel
  obtain ⟨e, h1, h2⟩ := Option.map_eq_some_iff.1 h
  obtain ⟨e0, h3, h4⟩ := Option.bind_eq_some_iff.1 h1
  obtain ⟨s, hs⟩ := exLegalRun_session (.start h3) h4
  simp only [Prod.mk.injEq] at h2
  exact ⟨e, s, hs, h2.1, h2.2.1, h2.2.2⟩

/-- `C71_undo_restores_partial` for the first command. -/
example : ∃ e s, Session exTok 1 e s ∧ Legal exTok e (exType 3 1 [4, 5]) ∧ (⟨none, none⟩ : CommandType).first.breaksUndoGroup e.lastEditType = true := by
  obtain ⟨e, h⟩ := C71_open exTok [1, 2, 3]
  have h1 : ((withText exTok [1, 2, 3]).map fun e => (exLegal e (exType 3 1 [4, 5]),
      (⟨none, none⟩ : CommandType).first.breaksUndoGroup e.lastEditType)) = some (true, true) := by decide +kernel
  rw [h] at h1
  simp only [Option.map_some, Option.some.injEq, Prod.mk.injEq] at h1
  exact ⟨e, _, .start h, (exLegal_legal h1.1).1, h1.2⟩

/-- A plugin that edits an old revision, in a group of its own. -/
example : ∃ e s, Session exTok 1 e s ∧ Legal exTok e (.plugin 2 5 none (exIns 4 4 [9])) := by
  have h : ((withText exTok [1, 2, 3]).bind fun e0 => exLegalRun 1 e0 [exType 3 3 [4], exType 4 0 [5]]).map
      (fun e => (e.engine.getRev exTok 2, decide ((exIns 4 4 [9]).WF ∧ (exIns 4 4 [9]).baseLen = 4))) =
      some (some (some [1, 2, 3, 4]), true) := by decide +kernel
  obtain ⟨e, h1, h2⟩ := Option.map_eq_some_iff.1 h
  obtain ⟨e0, h3, h4⟩ := Option.bind_eq_some_iff.1 h1
  obtain ⟨s, hs⟩ := exLegalRun_session (.start h3) h4
  simp only [Prod.mk.injEq, decide_eq_true_eq] at h2
  exact ⟨e, s, hs, rfl, h2.2.1, _, h2.1, h2.2.2.symm⟩

/-! ### C71: what goes wrong otherwise -/

/-- **C71, refuted clause.** A plugin that answers with the group that it was told about, when another group has been opened since,
makes the editor panic 18 steps later: the garbage collection of the engine is used on a group that is not a prefix of the edits. -/
theorem C71_plugin_group_refuted :
    (exRun 0 [1, 2, 3] ([exType 3 3 [4], exType 4 4 [5], .plugin 3 5 (some 1) (exIns 5 5 [9])] ++
      (List.range 19).map fun i => exType (6 + i) (6 + i) [i])).isSome = true ∧
    (exRun 0 [1, 2, 3] ([exType 3 3 [4], exType 4 4 [5], .plugin 3 5 (some 1) (exIns 5 5 [9])] ++
      (List.range 20).map fun i => exType (6 + i) (6 + i) [i])).isSome = false := by decide +kernel

/-- **C71, refuted clause.** Recordings that edit nothing open a group each; when the group of the last edit is collected that way, its
revision stays, and a later collection panics. -/
theorem C71_empty_recordings_refuted :
    (exRun 0 [1, 2, 3] ([exType 3 3 [4]] ++ List.replicate 20 (.play []) ++ (List.range 22).map fun i => exType (4 + i) (4 + i) [i])).isSome = false := by
  decide +kernel

/-- **C71, refuted clause.** A plugin's edit in a group that has been undone since is not visible. -/
theorem C71_undone_plugin_edit_refuted :
    (exRun 0 [1, 2, 3] [exType 3 3 [4], .event .undo, .plugin 3 5 (some 1) (exIns 3 3 [9])]).map (fun e => e.text) = some [1, 2, 3] := by
  decide +kernel

/-- **C71, refuted clause.** A recording that begins with an undo undoes the group that was opened for it, and then edits it in vain. -/
theorem C71_undo_in_recording_refuted :
    (exRun 0 [1, 2, 3] [exType 3 3 [4], .play [.undo, .buffer ⟨none, none⟩ (some (exIns 4 0 [9]))]]).map (fun e => e.text) = some [1, 2, 3, 4] := by
  decide +kernel

/-! ### C30 -/

/-- Full property C30: the flag is set only if the text is that of the last save. -/
def PristineTruthful (tok : RevId → Nat) : Prop :=
  ∀ (n : Nat) (e e' : Editor Nat) (s s' : UndoStack Nat), Session tok n e s → e.engine.getHeadRevId = some e.pristineRevId →
    Session tok n e' s' → Unsaved tok e e' → e'.isPristine = some true → e'.text = e.text

/-- **C30 (partial).** If no group has been collected since the last save (or since the text was loaded), the flag is truthful.
Missing: after a collection the flag can be wrong, see `C30_refuted`. -/
theorem C30_pristine_partial (h : Session tok n e s) (hp : e.engine.getHeadRevId = some e.pristineRevId) (hu : Unsaved tok e e')
    (hc : e'.collected = e.collected) (ht : e'.isPristine = some true) : e'.text = e.text := by
  obtain ⟨_, h1, h2, _⟩ := C71_stack_partial h
  exact pristine_text h1 h2 hp hu.later hc ht

/-- The hypotheses of `C30_pristine_partial`: an edit after the save, undone again. -/
example : ∃ (e e' : Editor Nat) (s : UndoStack Nat), Session exTok 1 e s ∧ e.engine.getHeadRevId = some e.pristineRevId ∧
    Unsaved exTok e e' ∧ e'.collected = e.collected ∧ e'.isPristine = some true ∧ e'.engine.getHeadRevId ≠ e.engine.getHeadRevId := by
  have h : ((withText exTok [1, 2, 3]).bind fun e0 => (exLegalRun 1 e0 [exType 3 3 [4], .save]).bind fun e =>
      (exLegalRun 1 e [exType 4 4 [5], .event .undo]).map fun e' =>
        (decide (e.engine.getHeadRevId = some e.pristineRevId), decide (e'.collected = e.collected), e'.isPristine,
          decide (e'.engine.getHeadRevId ≠ e.engine.getHeadRevId))) = some (true, true, some true, true) := by decide +kernel
  obtain ⟨e0, h0, h⟩ := Option.bind_eq_some_iff.1 h
  obtain ⟨e, h1, h⟩ := Option.bind_eq_some_iff.1 h
  obtain ⟨e', h2, h⟩ := Option.map_eq_some_iff.1 h
  obtain ⟨s, hs⟩ := exLegalRun_session (.start h0) h1
  simp only [Prod.mk.injEq, decide_eq_true_eq] at h
  exact ⟨e, e', s, hs, h.1, exLegalRun_unsaved .refl (by decide) h2, h.2.1, h.2.2.1, h.2.2.2⟩

/-- **C30, refuted.** The front end types 7, undoes that, types 4 and then 5, and saves `[1, 2, 3, 4, 5]`.  It undoes twice, the plugin
acknowledges all revisions, which collects the group of the 7, and it redoes once.  The buffer `[1, 2, 3, 4]` counts as unmodified. -/
theorem C30_refuted : ¬ PristineTruthful exTok := by
  intro hp
  have h : ((withText exTok [1, 2, 3]).bind fun e0 =>
      (exLegalRun 1 e0 [exType 3 3 [7], .event .undo, exType 3 3 [4], exType 4 4 [5], .save]).bind fun e =>
      (exLegalRun 1 e [.event .undo, .event .undo, .ack, .ack, .ack, .ack, .ack, .ack, .event .redo]).map fun e' =>
        (decide (e.engine.getHeadRevId = some e.pristineRevId), e'.isPristine, e.text, e'.text)) =
      some (true, some true, [1, 2, 3, 4, 5], [1, 2, 3, 4]) := by decide +kernel
  obtain ⟨e0, h0, h⟩ := Option.bind_eq_some_iff.1 h
  obtain ⟨e, h1, h⟩ := Option.bind_eq_some_iff.1 h
  obtain ⟨e', h2, h⟩ := Option.map_eq_some_iff.1 h
  obtain ⟨s, hs⟩ := exLegalRun_session (.start h0) h1
  obtain ⟨s', hs'⟩ := exLegalRun_session hs h2
  simp only [Prod.mk.injEq, decide_eq_true_eq] at h
  have := hp 1 e e' s s' hs h.1 hs' (exLegalRun_unsaved .refl (by decide) h2) h.2.1
  rw [h.2.2.1, h.2.2.2] at this
  exact absurd this (by decide)

/-- **C30.** Right after it has been saved, or loaded, the buffer counts as unmodified. -/
theorem C30_saved (h : Session tok n e s) (hp : e.engine.getHeadRevId = some e.pristineRevId) : e.isPristine = some true := by
  obtain ⟨_, h1, _⟩ := C71_stack_partial h
  obtain ⟨l, hl⟩ := h1.den
  obtain ⟨pre, r, k1, k2, _⟩ := hl.head_find tok hp
  have k3 : e.engine.findRev e.pristineRevId = some pre.length := by
    rw [Engine.findRev, k1]
    exact findLastIdx_last _ _ (by simp [k2])
  obtain ⟨S, k4, _⟩ := hl.cur_union (pre := pre) (r := r) (post := []) k1
  simp [isPristine, hp, Engine.isEquivalentRevision, k3, k4]

/-- Saving, and loading a text, make `C30_saved` applicable. -/
theorem C30_save_sets (h : input tok n e .save = some e') : e'.engine.getHeadRevId = some e'.pristineRevId ∧ e'.text = e.text := by
  simp only [input, setPristine, Option.bind_eq_bind, Option.bind_eq_some_iff] at h
  obtain ⟨r, h1, h2⟩ := h
  cases h2
  exact ⟨h1, rfl⟩

theorem C30_load_sets {text : List α} (h : withText tok text = some e) : e.engine.getHeadRevId = some e.pristineRevId ∧ e.text = text := by
  refine ⟨?_, ?_⟩
  · simp only [withText, Option.bind_eq_bind, Option.bind_eq_some_iff] at h
    obtain ⟨en, _, rev, h2, h⟩ := h
    cases h
    exact h2
  · have := (C71_stack_partial (n := 0) (.start h)).1
    simpa [UndoStack.current, UndoStack.start] using this.symm

end Xi
