import Verif.Core.EditorSession

/-!
# The pristine flag
-/

namespace Xi

/-- A revision keeps its contents in edits and undos. -/
theorem Engine.Steps.content {α : Type} {tok : RevId → Nat} {e e' : Engine α} (hst : Engine.Steps tok e e') (h : Engine.Reach tok e)
    {pre post : List Revision} {r : Revision} {x : List α} (hs : e.revs = pre ++ r :: post) (hx : e.revContentForIndex pre.length = some x) :
    ∃ post', e'.revs = pre ++ r :: post' ∧ e'.revContentForIndex pre.length = some x := by
  induction hst with
  | refl => exact ⟨post, hs, hx⟩
  | edit p g t' d hst1 hd hok ih =>
    obtain ⟨post1, i1, i2⟩ := ih
    obtain ⟨l1, h1⟩ := (h.steps hst1).den
    obtain ⟨pre', r', post', a1, a2, a3⟩ := h1.edit_inv hok
    obtain ⟨e2, l2, items, head', b1, b2, _, _, _, _, _, _, _, _, b4⟩ := h1.edit_full a1 a2 p g hd a3
    rw [hok] at b1; cases b1
    obtain ⟨post2, c1, c2⟩ := b4 pre r post1 i1
    refine ⟨post2, c1, ?_⟩
    rw [b2.rev_content c1, c2, ← h1.rev_content i1, i2]
  | undo groups hst1 hok ih =>
    obtain ⟨post1, i1, i2⟩ := ih
    obtain ⟨l1, h1⟩ := (h.steps hst1).den
    obtain ⟨e2, b1, b2, _, _, _, _, b4⟩ := h1.undo_full groups
    rw [hok] at b1; cases b1
    obtain ⟨post2, c1, c2⟩ := b4 pre r post1 i1
    refine ⟨post2, c1, ?_⟩
    rw [b2.rev_content c1, c2, ← h1.rev_content i1, i2]

theorem Engine.Steps.trans {α : Type} {tok : RevId → Nat} {a b c : Engine α} (h1 : Engine.Steps tok a b) (h2 : Engine.Steps tok b c) : Engine.Steps tok a c := by
  induction h2 with
  | refl => exact h1
  | edit p g t d _ hd hok ih => exact ih.edit p g t d hd hok
  | undo groups _ hok ih => exact ih.undo groups hok

namespace Editor

variable {α : Type} {tok : RevId → Nat} {e e' e'' : Editor α}

/-- What happens between two saves. -/
structure Later (tok : RevId → Nat) (e e' : Editor α) : Prop where
  pristine : e'.pristineRevId = e.pristineRevId
  collected : e.collected <+: e'.collected
  text : e.text = e.engine.text → e'.text = e'.engine.text
  steps : e'.collected = e.collected → Engine.Steps tok e.engine e'.engine

theorem Later.refl (e : Editor α) : Later tok e e := ⟨rfl, List.prefix_refl _, id, fun _ => .refl _⟩

theorem Later.trans (h1 : Later tok e e') (h2 : Later tok e' e'') : Later tok e e'' := by
  refine ⟨by rw [h2.pristine, h1.pristine], h1.collected.trans h2.collected, fun h => h2.text (h1.text h), ?_⟩
  intro hc
  have k1 := h1.collected.length_le
  have k2 := h2.collected.length_le
  have e1 : e'.collected = e.collected := (h1.collected.eq_of_length (by rw [hc] at k2; omega)).symm
  exact (h1.steps e1).trans (h2.steps (by rw [hc, e1]))

/-- Parts of the editor that do not matter here. -/
theorem later_same (h1 : e'.pristineRevId = e.pristineRevId) (h2 : e'.collected = e.collected) (h3 : e'.text = e.text) (h4 : e'.engine = e.engine) :
    Later tok e e' :=
  ⟨h1, by rw [h2]; exact List.prefix_refl _, by rw [h3, h4]; exact id, fun _ => by rw [h4]; exact .refl _⟩

theorem openGroup_later {g : Nat} (h : e.openGroup = some (g, e')) : Later tok e e' := by
  unfold openGroup at h
  split at h
  · cases h
  · simp only at h
    split at h <;> (cases h; exact later_same rfl rfl rfl rfl)

theorem calculate_later {g : Nat} (h : e.calculateUndoGroup = some (g, e')) : Later tok e e' := by
  unfold calculateUndoGroup at h
  split at h
  · split at h
    · cases h; exact .refl _
    · exact openGroup_later h
  · exact openGroup_later h

theorem addDelta_later {d : Delta α} (hw : d.WF) (hd : e.addDelta tok d = some e') : Later tok e e' := by
  simp only [addDelta, Option.bind_eq_bind, Option.bind_eq_some_iff] at hd
  obtain ⟨_, _, ⟨g, e1⟩, h1, en, h3, h2⟩ := hd
  cases h2
  refine (calculate_later h1).trans ⟨rfl, List.prefix_refl _, fun _ => rfl, fun _ => ?_⟩
  simp only [Engine.editRev, Option.bind_eq_bind, Option.bind_eq_some_iff] at h3
  obtain ⟨x, k1, k2⟩ := h3
  cases x with
  | error _ => cases k2
  | ok x => cases k2; exact .edit _ _ _ _ (.refl _) hw k1

theorem applyPluginEdit_later {rev p : Nat} {g : Option Nat} {d : Delta α} (hw : d.WF) (hd : e.applyPluginEdit tok rev p g d = some e') :
    Later tok e e' := by
  simp only [applyPluginEdit, Option.bind_eq_bind, Option.bind_eq_some_iff] at hd
  obtain ⟨⟨g', e1⟩, h1, x, h3, h2⟩ := hd
  have h4 : Later tok e e1 := by
    unfold pluginGroup at h1
    split at h1
    · cases h1; exact .refl _
    · exact calculate_later h1
  refine h4.trans ?_
  cases x with
  | error _ => cases h2; exact .refl _
  | ok x => cases h2; exact ⟨rfl, List.prefix_refl _, fun _ => rfl, fun _ => .edit _ _ _ _ (.refl _) hw h3⟩

theorem commitDelta_later {x} (hd : e.commitDelta tok = some (e', x)) : Later tok e e' := by
  simp only [commitDelta, Option.bind_eq_bind, Option.bind_eq_some_iff] at hd
  obtain ⟨c, _, hd⟩ := hd
  split at hd
  · simp only [Option.bind_eq_some_iff] at hd
    obtain ⟨y, _, hd⟩ := hd
    cases y with
    | error _ => cases hd
    | ok y =>
      simp only [Option.bind_eq_some_iff] at hd
      obtain ⟨_, _, _, _, _, _, hd⟩ := hd
      cases hd
      exact later_same rfl rfl rfl rfl
  · cases hd; exact .refl _

theorem runGc_later (hd : e.runGc = some e') : Later tok e e' := by
  unfold runGc at hd
  split at hd
  · rename_i hc
    simp only [Option.bind_eq_bind, Option.bind_eq_some_iff] at hd
    obtain ⟨en, h1, hd⟩ := hd
    cases hd
    have ht : en.text = e.engine.text := by
      simp only [Engine.gc, Option.bind_eq_bind, Option.bind_eq_some_iff] at h1
      obtain ⟨_, _, _, _, ⟨_, _⟩, _, _, _, h1⟩ := h1
      cases h1; rfl
    refine ⟨rfl, List.prefix_append _ _, fun h => by show e.text = en.text; rw [ht]; exact h, fun h => ?_⟩
    exfalso
    apply hc.2
    have : e.collected ++ e.gcUndos = e.collected := h
    simpa using this
  · cases hd; exact .refl _

theorem decRevsInFlight_later (hd : e.decRevsInFlight = some e') : Later tok e e' := by
  unfold decRevsInFlight at hd
  split at hd
  · cases hd
  · exact (later_same (e := e) (e' := { e with revsInFlight := e.revsInFlight - 1 }) rfl rfl rfl rfl).trans (runGc_later hd)

theorem updateUndos_later (hd : e.updateUndos = some e') : Later tok e e' := by
  simp only [updateUndos, Option.bind_eq_bind, Option.bind_eq_some_iff] at hd
  obtain ⟨en, h1, hd⟩ := hd
  cases hd
  exact ⟨rfl, List.prefix_refl _, fun _ => rfl, fun _ => .undo _ (.refl _) h1⟩

theorem doUndo_later (hd : e.doUndo = some e') : Later tok e e' := by
  unfold doUndo at hd
  split at hd
  · simp only [Option.bind_eq_bind, Option.bind_eq_some_iff] at hd
    obtain ⟨g, _, hd⟩ := hd
    split at hd
    · cases hd
    · have h1 := updateUndos_later (tok := tok) hd
      refine Later.trans ?_ h1
      exact later_same rfl rfl rfl rfl
  · cases hd; exact .refl _

theorem doRedo_later (hd : e.doRedo = some e') : Later tok e e' := by
  unfold doRedo at hd
  split at hd
  · simp only [Option.bind_eq_bind, Option.bind_eq_some_iff] at hd
    obtain ⟨g, _, hd⟩ := hd
    split at hd
    · have h1 := updateUndos_later (tok := tok) hd
      refine Later.trans ?_ h1
      exact later_same rfl rfl rfl rfl
    · cases hd
  · cases hd; exact .refl _

theorem setType_later (e : Editor α) (t : Option EditType) : Later tok e (e.setType t) := by
  cases t <;> exact later_same rfl rfl rfl rfl

theorem dispatch_later {ev : Event α} (hw : ev.Wf) (hd : e.dispatch tok ev = some e') : Later tok e e' := by
  cases ev with
  | buffer t d =>
    cases d with
    | none => cases hd; exact .refl _
    | some d =>
      simp only [dispatch, command, Option.bind_eq_bind, Option.bind_eq_some_iff] at hd
      obtain ⟨e1, h1, hd⟩ := hd
      cases hd
      exact ((setType_later e t.before).trans (addDelta_later hw h1)).trans (setType_later e1 t.after)
  | undo => exact doUndo_later hd
  | redo => exact doRedo_later hd
  | view => cases hd; exact later_same rfl rfl rfl rfl

theorem playStep_later {ev : Event α} (hw : ev.Wf) (hd : e.playStep tok ev = some e') : Later tok e e' := by
  simp only [playStep, Option.bind_eq_bind, Option.bind_eq_some_iff] at hd
  obtain ⟨e1, h1, ⟨e2, x⟩, h2, hd⟩ := hd
  cases hd
  exact (dispatch_later hw h1).trans (commitDelta_later h2)

theorem updatePlugins_later {n : Nat} (hd : e.updatePlugins n = some e') : Later tok e e' := by
  simp only [updatePlugins, Option.bind_eq_bind, Option.bind_eq_some_iff] at hd
  obtain ⟨e1, h1, hd⟩ := hd
  cases hd
  exact ((later_same (e := e) (e' := { e with revsInFlight := e.revsInFlight + 1 + n }) rfl rfl rfl rfl).trans (decRevsInFlight_later h1)).trans
    (later_same rfl rfl rfl rfl)

theorem afterEdit_later {n : Nat} (hd : e.afterEdit tok n = some e') : Later tok e e' := by
  simp only [afterEdit, Option.bind_eq_bind, Option.bind_eq_some_iff] at hd
  obtain ⟨⟨e1, x⟩, h1, hd⟩ := hd
  cases x with
  | none => cases hd; exact .refl _
  | some x => exact (commitDelta_later h1).trans (updatePlugins_later hd)

theorem play_later {events : List (Event α)} {n : Nat} (hw : ∀ ev ∈ events, ev.Wf) (hd : e.play tok events n = some e') : Later tok e e' := by
  simp only [play, Option.bind_eq_bind, Option.bind_eq_some_iff] at hd
  obtain ⟨⟨g, e1⟩, h1, e2, h2, hd⟩ := hd
  have a0 : Later tok e e1 := Later.trans (e' := e.updateEditType) (later_same rfl rfl rfl rfl) (calculate_later h1)
  have a1 : Later tok e (e1.setForceUndoGroup true) := a0.trans (later_same rfl rfl rfl rfl)
  have a2 : Later tok (e1.setForceUndoGroup true) e2 := by
    clear a1 a0 h1
    generalize e1.setForceUndoGroup true = f at h2
    induction events generalizing f with
    | nil => cases h2; exact .refl _
    | cons ev events ih =>
      simp only [List.foldlM_cons, Option.bind_eq_bind, Option.bind_eq_some_iff] at h2
      obtain ⟨f1, k1, k2⟩ := h2
      exact (playStep_later (hw ev (by simp)) k1).trans (ih (fun ev hev => hw ev (by simp [hev])) f1 k2)
  exact ((a1.trans a2).trans (later_same (e' := (e2.setForceUndoGroup false).updateEditType) rfl rfl rfl rfl)).trans (updatePlugins_later hd)

theorem input_later {n : Nat} {i : Input α} (hi : i.Unsaved) (hd : input tok n e i = some e') : Later tok e e' := by
  cases i with
  | event ev =>
    simp only [input, Option.bind_eq_bind, Option.bind_eq_some_iff] at hd
    obtain ⟨e1, h1, hd⟩ := hd
    exact (dispatch_later hi h1).trans (afterEdit_later hd)
  | play evs =>
    simp only [input, Option.bind_eq_bind, Option.bind_eq_some_iff] at hd
    obtain ⟨e1, h1, hd⟩ := hd
    exact (play_later hi h1).trans (afterEdit_later hd)
  | plugin rev p g d =>
    simp only [input, Option.bind_eq_bind, Option.bind_eq_some_iff] at hd
    obtain ⟨e1, h1, hd⟩ := hd
    exact (applyPluginEdit_later hi h1).trans (afterEdit_later hd)
  | ack => exact decRevsInFlight_later hd
  | save => exact hi.elim
  | reload d => exact hi.elim

theorem Unsaved.later (h : Unsaved tok e e') : Later tok e e' := by
  induction h with
  | refl => exact .refl _
  | step n i _ hi hin ih => exact ih.trans (input_later hi hin)

/-- Equivalent revisions that are both there. -/
theorem pristine_text (hr : Engine.Reach tok e.engine) (ht : e.text = e.engine.text) (hp : e.engine.getHeadRevId = some e.pristineRevId)
    (hu : Later tok e e') (hc : e'.collected = e.collected) (hpr : e'.isPristine = some true) : e'.text = e.text := by
  have hst := hu.steps hc
  have hr' := hr.steps hst
  obtain ⟨l, hl⟩ := hr.den
  obtain ⟨l', hl'⟩ := hr'.den
  obtain ⟨pre, r, h1, h2⟩ := hl.last
  have hid : r.revId = e.pristineRevId := by simpa [Engine.getHeadRevId, h2] using hp
  have hx : e.engine.revContentForIndex pre.length = some e.engine.text := by
    rw [hl.rev_content h1, hl.text]; rfl
  obtain ⟨post', k1, k2⟩ := hst.content hr h1 hx
  obtain ⟨pre2, r2, m1, m2⟩ := hl'.last
  have hh : e'.engine.getHeadRevId = some r2.revId := by simp [Engine.getHeadRevId, m2]
  simp only [isPristine, hh, Option.bind_eq_bind, Option.bind_some, hu.pristine] at hpr
  have hfind : ∀ (p1 p2 : List Revision) (q : Revision), e'.engine.revs = p1 ++ q :: p2 → e'.engine.findRev q.revId = some p1.length := by
    intro p1 p2 q hq
    obtain ⟨i, hi⟩ := findLastIdx_isSome (p := fun r => r.revId == q.revId) (l := e'.engine.revs) (x := q) (by rw [hq]; simp) (by simp)
    obtain ⟨a, x, b, c1, c2, c3, _⟩ := findLastIdx_some hi
    have hxq : x = q := nodup_ids_inj hl'.revsOk.nodup (by rw [c1]; simp) (by rw [hq]; simp) (by simpa using c3)
    subst hxq
    have hnd := hl'.revsOk.nodup
    have e1 := congrArg ids c1
    have e2 := congrArg ids hq
    rw [ids_append, ids_cons] at e1 e2
    rw [Engine.findRev, hi, ← c2]
    congr 1
    -- positions of an id in a list without duplicates
    have g1 : (ids e'.engine.revs)[a.length]? = some x.revId := by rw [e1]; simp [ids]
    have g2 : (ids e'.engine.revs)[p1.length]? = some x.revId := by rw [e2]; simp [ids]
    obtain ⟨u1, v1⟩ := List.getElem?_eq_some_iff.1 g1
    obtain ⟨u2, v2⟩ := List.getElem?_eq_some_iff.1 g2
    exact (List.getElem_inj hnd).1 (v1.trans v2.symm)
  have f1 := hfind pre post' r k1
  have f2 := hfind pre2 [] r2 m1
  rw [hid] at f1
  obtain ⟨heq, _⟩ := C30_equivalent_same_text hr' f1 f2 hpr
  have hcont : e'.engine.revContentForIndex pre2.length = some e'.engine.text := by
    rw [hl'.rev_content m1, hl'.text]; rfl
  rw [k2, hcont] at heq
  rw [hu.text ht, ht]
  simpa using heq.symm

end Editor

end Xi
