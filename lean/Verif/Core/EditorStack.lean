import Verif.Core.EditorBook
import Verif.Props.Engine

/-!
# The undo history of an editor is a stack of texts
-/

namespace Xi

namespace Editor

variable {α : Type} {tok : RevId → Nat} {e e' : Editor α} {s : UndoStack α} {l : List (Chr α)}

/-- The undone groups that wait for collection. -/
def dead (e : Editor α) : List Nat := e.undos.filter (fun g => e.gcUndos.contains g)

/-- The text when the first `k` groups are live. -/
def view (e : Editor α) (l : List (Chr α)) (k : Nat) : List α := visibleText (e.liveUndos.drop k ++ e.dead) l

/-- The engine and the stack belong to the bookkeeping; `l` is the account of the characters. -/
structure Core (tok : RevId → Nat) (e : Editor α) (s : UndoStack α) (l : List (Chr α)) : Prop where
  ok : e.Ok
  reach : Engine.Reach tok e.engine
  den : Den e.engine l
  text : e.text = e.engine.text
  texts : s.texts = (List.range' 1 e.liveUndos.length).map (e.view l)
  cur : s.cur = e.curUndo
  undone : ∀ g, g ∈ e.liveUndos ∨ g ∈ e.gcUndos → (g ∈ e.engine.undoneGroups ↔ g ∈ e.undos)
  fresh : ∀ g ∈ e.engine.undoneGroups, g < e.undoGroupId
  revs : ∀ r ∈ e.engine.revs, ∀ g, r.group? = some g → g ∈ e.liveUndos ∨ g ∈ e.gcUndos
  mono : (e.engine.revs.filterMap Revision.group?).Pairwise (· ≤ ·)

/-- The groups of the last revision. -/
def HeadLive (e : Editor α) : Prop := ∀ r, e.engine.revs.getLast? = some r → ∀ g, r.group? = some g → g ∈ e.liveUndos

theorem contains_congr {G G' : List Nat} {g : Nat} (h : g ∈ G ↔ g ∈ G') : G.contains g = G'.contains g := by
  rw [Bool.eq_iff_iff, List.contains_iff_mem, List.contains_iff_mem, h]

theorem mem_dead {g : Nat} : g ∈ e.dead ↔ g ∈ e.undos ∧ g ∈ e.gcUndos := by simp [dead]

/-- The shown text is the text of the stack. -/
theorem Core.current (h : Core tok e s l) : s.current = some e.text := by
  have hb : Book _ _ _ _ _ _ := h.ok
  have h1 := hb.pos
  have h2 := hb.le
  rw [UndoStack.current, h.texts, h.cur, h.text, h.den.text_visible, List.getElem?_map, List.getElem?_range' (by omega)]
  simp only [Option.map_some, Option.some.injEq]
  rw [view, show 1 + 1 * (e.curUndo - 1) = e.curUndo by omega]
  apply visibleText_congr_on h.den.revsOk
  intro r hr g hg
  apply contains_congr
  have hk := h.revs r hr g hg
  rw [h.undone g hk, List.mem_append, mem_dead]
  constructor
  · rintro (h1 | h1)
    · exact hb.undone g h1
    · exact h1.1
  · intro h1
    rcases hb.known g h1 with h2 | h2
    · exact Or.inl h2
    · exact Or.inr ⟨h1, h2⟩

/-- The undo and redo of the engine do not change what can be shown. -/
theorem Core.updateUndos (h : Core tok e s l) {cur : Nat} {undos : List Nat} {t : EditType}
    (hb : Book e.undoGroupId e.liveUndos cur undos e.gcUndos e.collected)
    (hd : ∀ g ∈ e.gcUndos, (g ∈ undos ↔ g ∈ e.undos)) (lt : EditType) :
    ∃ e', Editor.updateUndos { e with curUndo := cur, undos := undos, thisEditType := t } = some e' ∧
      Core tok e' ⟨s.texts, cur, lt⟩ l ∧ HeadLive e' ∧ e'.thisEditType = t ∧ e'.lastEditType = e.lastEditType ∧ e'.forceUndoGroup = e.forceUndoGroup ∧
      e'.lastRevId = e.lastRevId ∧ e'.curUndo = cur ∧ e'.liveUndos = e.liveUndos ∧
      ∃ r, e'.engine.revs = e.engine.revs ++ [r] ∧ r.revId = e.engine.nextRevId := by
  obtain ⟨en, a1, a2, a3, a4, a5, ⟨r, a6, a7, a8⟩, _⟩ := h.den.undo_full undos
  refine ⟨{ e with curUndo := cur, undos := undos, thisEditType := t, engine := en, text := en.text }, ?_, ?_, ?_, rfl, rfl, rfl, rfl, rfl, rfl, r, a6, a7⟩
  · simp [Editor.updateUndos, a1]
  · refine ⟨hb, h.reach.undo _ a1, a2, rfl, ?_, rfl, ?_, ?_, ?_, ?_⟩
    · show s.texts = _
      rw [h.texts]
      apply List.map_congr_left
      intro k _
      unfold view
      apply visibleText_congr
      intro g
      apply contains_congr
      simp only [List.mem_append, mem_dead]
      show _ ∨ _ ↔ _ ∨ (g ∈ undos ∧ g ∈ e.gcUndos)
      refine or_congr Iff.rfl ?_
      constructor
      · rintro ⟨h1, h2⟩; exact ⟨(hd g h2).2 h1, h2⟩
      · rintro ⟨h1, h2⟩; exact ⟨(hd g h2).1 h1, h2⟩
    · intro g _
      show g ∈ en.undoneGroups ↔ g ∈ undos
      rw [a3]
    · intro g hg
      replace hg : g ∈ en.undoneGroups := hg
      rw [a3] at hg
      show g < e.undoGroupId
      rcases hb.known g hg with h1 | h1
      · exact hb.lt_next (Or.inl (List.mem_of_mem_drop h1))
      · exact hb.lt_next (Or.inr h1)
    · intro r' hr' g hg
      show g ∈ e.liveUndos ∨ g ∈ e.gcUndos
      replace hr' : r' ∈ en.revs := hr'
      rw [a6, List.mem_append, List.mem_singleton] at hr'
      rcases hr' with hr' | rfl
      · exact h.revs r' hr' g hg
      · rw [a8] at hg; cases hg
    · show (en.revs.filterMap Revision.group?).Pairwise (· ≤ ·)
      rw [a6, List.filterMap_append]
      simpa [a8] using h.mono
  · intro r' hr' g hg
    replace hr' : en.revs.getLast? = some r' := hr'
    rw [a6] at hr'
    simp at hr'; subst hr'
    rw [a8] at hg; cases hg

/-- A new group without an edit. -/
theorem Core.openGroup (h : Core tok e s l) (lt : EditType) : ∃ e', e.openGroup = some (e.undoGroupId, e') ∧ e'.undoGroupId = e.undoGroupId + 1 ∧
    Core tok e' (s.push e.text lt) l ∧ e'.curUndo = e'.liveUndos.length ∧
    e'.engine = e.engine ∧ e'.text = e.text ∧ e'.thisEditType = e.thisEditType ∧ e'.lastEditType = e.lastEditType ∧
    e'.forceUndoGroup = e.forceUndoGroup ∧ e'.lastRevId = e.lastRevId ∧ e'.revsInFlight = e.revsInFlight := by
  have hb : Book _ _ _ _ _ _ := h.ok
  obtain ⟨e1, b1, b2, b3, b4, b5, b6, b7⟩ := openGroup_spec h.ok
  have k1 : e1.engine = e.engine := by rw [b7]
  have k2 : e1.text = e.text := by rw [b7]
  have k3 : e1.undos = e.undos := by rw [b7]
  have hb1 : Book _ _ _ _ _ _ := b2
  have hle := hb.le
  have hpos := hb.pos
  have hmax := hb.max
  have hlen : (e.liveUndos.take e.curUndo).length = e.curUndo := by simp; omega
  have hsplit : ∀ g, (g ∈ e1.liveUndos ∨ g ∈ e1.gcUndos) ↔ (g ∈ e.liveUndos ∨ g ∈ e.gcUndos) ∨ g = e.undoGroupId := by
    intro g
    have p1 := hb.all.mem_iff (a := g)
    have p2 := hb1.all.mem_iff (a := g)
    have hc : e1.collected = e.collected := by rw [b7]
    have hnd := hb1.disjoint_done (g := g)
    have hnd0 := hb.disjoint_done (g := g)
    rw [hc] at p2 hnd
    rw [b6] at p2
    simp only [List.mem_append, List.mem_range] at p1 p2
    have hlast : g = e.undoGroupId → g ∉ e.collected := by
      intro hg hm
      have := p1.1 (by simp [hm]); omega
    constructor
    · intro hg
      have h1 := hnd hg
      have h2 := p2.1 (by rcases hg with hg | hg <;> simp [hg])
      by_cases h3 : g = e.undoGroupId
      · exact Or.inr h3
      · have h4 := p1.2 (by omega)
        left
        rcases h4 with (h4 | h4) | h4
        · exact absurd h4 h1
        · exact Or.inr h4
        · exact Or.inl h4
    · intro hg
      have h1 : g ∉ e.collected := by
        rcases hg with hg | hg
        · exact hnd0 hg
        · exact hlast hg
      have h2 : g < e.undoGroupId + 1 := by
        rcases hg with hg | hg
        · have := hb.lt_next hg; omega
        · omega
      rcases p2.2 h2 with (h4 | h4) | h4
      · exact absurd h4 h1
      · exact Or.inr h4
      · exact Or.inl h4
  have hnew : e.undoGroupId ∉ e.undos := by
    intro hm
    have : e.undoGroupId < e.undoGroupId := by
      rcases hb.known _ hm with h1 | h1
      · exact hb.lt_next (Or.inl (List.mem_of_mem_drop h1))
      · exact hb.lt_next (Or.inr h1)
    omega
  have hrevs : ∀ r ∈ e.engine.revs, ∀ g, r.group? = some g → g ≠ e.undoGroupId := by
    intro r hr g hg hge
    have := hb.lt_next (h.revs r hr g hg)
    omega
  refine ⟨e1, b1, b6, ?_, b4, k1, k2, by rw [b7], by rw [b7], by rw [b7], by rw [b7], by rw [b7]⟩
  -- the new length
  have hlen1 : e1.liveUndos.length = e.curUndo + 1 - (e.curUndo + 1 - maxUndos) := by
    rw [b3]; simp only [List.length_drop, List.length_append, hlen, List.length_singleton]
  have htl : s.texts.length = e.liveUndos.length := by rw [h.texts]; simp
  have htake : (s.texts.take s.cur ++ [e.text]).length = e.curUndo + 1 := by
    simp only [List.length_append, List.length_take, htl, h.cur, List.length_singleton]; omega
  -- the text of the head
  have hcur := h.current
  refine ⟨b2, by rw [k1]; exact h.reach, by rw [k1]; exact h.den, by rw [k1, k2]; exact h.text, ?_, ?_, ?_,
    by rw [k1, b6]; exact fun g hg => Nat.lt_succ_of_lt (h.fresh g hg), ?_, by rw [k1]; exact h.mono⟩
  · show (s.texts.take s.cur ++ [e.text]).drop ((s.texts.take s.cur ++ [e.text]).length - 20) = _
    rw [htake]
    apply List.ext_getElem?
    intro i
    rw [List.getElem?_drop, List.getElem?_map]
    generalize hm : e.curUndo + 1 - maxUndos = m at *
    have hm' : e.curUndo + 1 - 20 = m := hm
    rw [hm']
    by_cases hi : i < e1.liveUndos.length
    · rw [List.getElem?_range' hi]
      simp only [Option.map_some]
      -- the view
      have hview : e1.view l (1 + 1 * i) = e.view l (min (m + i + 1) e.curUndo) := by
        unfold view
        apply visibleText_congr_on h.den.revsOk
        intro r hr g hg
        apply contains_congr
        have hne := hrevs r hr g hg
        have hk := h.revs r hr g hg
        simp only [List.mem_append, mem_dead, k3]
        rw [b3, List.drop_drop]
        have hdrop : g ∈ (e.liveUndos.take e.curUndo ++ [e.undoGroupId]).drop (m + (1 + 1 * i)) ↔
            g ∈ (e.liveUndos.take e.curUndo).drop (m + i + 1) := by
          rw [show m + (1 + 1 * i) = m + i + 1 by omega, List.drop_append]
          simp only [List.mem_append]
          constructor
          · rintro (h1 | h1)
            · exact h1
            · exact absurd (List.mem_singleton.1 (List.mem_of_mem_drop h1)) hne
          · exact Or.inl
        rw [hdrop]
        have hold : g ∈ e.liveUndos.drop (min (m + i + 1) e.curUndo) ↔
            g ∈ (e.liveUndos.take e.curUndo).drop (m + i + 1) ∨ g ∈ e.liveUndos.drop e.curUndo := by
          rw [← List.mem_append]
          by_cases hmi : m + i + 1 ≤ e.curUndo
          · rw [Nat.min_eq_left hmi, ← List.drop_append_of_le_length (by rw [hlen]; exact hmi), List.take_append_drop]
          · rw [Nat.min_eq_right (by omega), List.drop_eq_nil_of_le (as := e.liveUndos.take e.curUndo) (by rw [hlen]; omega)]
            simp
        rw [hold]
        have hgc : (g ∈ e.undos ∧ g ∈ e1.gcUndos) ↔ (g ∈ e.undos ∧ g ∈ e.gcUndos) ∨ g ∈ e.liveUndos.drop e.curUndo := by
          rw [b5]
          simp only [List.mem_append]
          constructor
          · rintro ⟨h1, (h2 | h2) | h2⟩
            · exact Or.inl ⟨h1, h2⟩
            · exact Or.inr h2
            · -- the oldest group
              exfalso
              have h3 := List.mem_of_mem_take h2
              simp only [List.mem_append, List.mem_singleton] at h3
              rcases h3 with h3 | h3
              · exact hb.not_undone h3 h1
              · exact hne h3
          · rintro (⟨h1, h2⟩ | h1)
            · exact ⟨h1, Or.inl (Or.inl h2)⟩
            · exact ⟨hb.undone g h1, Or.inl (Or.inr h1)⟩
        rw [hgc]
        constructor
        · rintro (h1 | h1 | h1)
          · exact Or.inl (Or.inl h1)
          · exact Or.inr h1
          · exact Or.inl (Or.inr h1)
        · rintro ((h1 | h1) | h1)
          · exact Or.inl h1
          · exact Or.inr (Or.inr h1)
          · exact Or.inr (Or.inl h1)
      rw [hview]
      by_cases hmi : m + i < e.curUndo
      · rw [List.getElem?_append_left (by rw [List.length_take, htl, h.cur]; omega), List.getElem?_take_of_lt (by rw [h.cur]; exact hmi),
          h.texts, List.getElem?_map, List.getElem?_range' (by omega), Nat.min_eq_left (by omega)]
        simp; congr 1; omega
      · have hmi' : m + i = e.curUndo := by omega
        rw [List.getElem?_append_right (by rw [List.length_take, htl, h.cur]; omega), List.length_take, htl, h.cur,
          show m + i - min e.curUndo e.liveUndos.length = 0 by omega, Nat.min_eq_right (by omega)]
        simp only [List.getElem?_cons_zero, Option.some.injEq]
        rw [UndoStack.current, h.texts, h.cur, List.getElem?_map, List.getElem?_range' (by omega)] at hcur
        simp at hcur
        rw [← hcur]
        congr 1; omega
    · rw [List.getElem?_eq_none (l := List.range' 1 e1.liveUndos.length) (by simp; omega), List.getElem?_eq_none (by rw [htake]; omega)]
      rfl
  · show ((s.texts.take s.cur ++ [e.text]).drop ((s.texts.take s.cur ++ [e.text]).length - 20)).length = _
    rw [List.length_drop, htake, b4, hlen1]
    rfl
  · intro g hg
    rw [k1, k3]
    rcases (hsplit g).1 hg with hg | hg
    · exact h.undone g hg
    · subst hg
      constructor
      · intro h1; have := h.fresh _ h1; omega
      · intro h1; exact absurd h1 hnew
  · rw [k1]
    intro r hr g hg
    exact (hsplit g).2 (Or.inl (h.revs r hr g hg))

/-- The group of the last step is not undone. -/
theorem Core.last_live (h : Core tok e s l) (hc : e.curUndo = e.liveUndos.length) :
    e.undoGroupId - 1 ∈ e.liveUndos ∧ e.undoGroupId - 1 ∉ e.undos ∧ e.undoGroupId - 1 ∉ e.engine.undoneGroups := by
  have hb : Book _ _ _ _ _ _ := h.ok
  have h1 : e.undoGroupId - 1 ∈ e.liveUndos := List.mem_of_getLast? hb.last
  have h2 : e.undoGroupId - 1 ∉ e.undos := by
    apply hb.not_undone
    rw [hc, List.take_length]; exact h1
  exact ⟨h1, h2, fun h3 => h2 ((h.undone _ (Or.inl h1)).1 h3)⟩

/-- An edit in the last group. -/
theorem Core.edit (h : Core tok e s l) (hc : e.curUndo = e.liveUndos.length) {p t : Nat} {d : Delta α} {en : Engine α} (hd : d.WF)
    (hok : e.engine.tryEditRev tok p (e.undoGroupId - 1) t d = some (.ok en)) (f1 f2 lt : EditType) :
    ∃ l', Core tok { e with engine := en, text := en.text, lastEditType := f1, thisEditType := f2 } (s.amend en.text lt) l' ∧
      HeadLive { e with engine := en, text := en.text, lastEditType := f1, thisEditType := f2 } ∧
      (∃ r, en.revs = e.engine.revs ++ [r] ∧ r.revId = e.engine.nextRevId) := by
  have hb : Book _ _ _ _ _ _ := h.ok
  obtain ⟨g1, g2, g3⟩ := h.last_live hc
  obtain ⟨pre, r0, post, a1, a2, a3⟩ := h.den.edit_inv hok
  obtain ⟨en', l', items, head', b1, b2, b3, b4, _, b5, b6, b7, b8, ⟨r, b9, b10, b11⟩, _⟩ := h.den.edit_full a1 a2 p (e.undoGroupId - 1) hd a3
  rw [hok] at b1; cases b1
  have hcore : Core tok { e with engine := en, text := en.text, lastEditType := f1, thisEditType := f2 } (s.amend en.text lt) l' := by
    have hrevs : ∀ r ∈ en.revs, ∀ g, r.group? = some g → g ∈ e.liveUndos ∨ g ∈ e.gcUndos := by
      intro r' hr' g hg
      rw [b9, List.mem_append, List.mem_singleton] at hr'
      rcases hr' with hr' | rfl
      · exact h.revs r' hr' g hg
      · rw [b11] at hg; cases hg; exact Or.inl g1
    refine ⟨h.ok, h.reach.edit _ _ _ _ hd hok, b2, rfl, ?_, h.cur, ?_, ?_, hrevs, ?_⟩
    · show s.texts.dropLast ++ [en.text] = _
      obtain ⟨n, hn⟩ : ∃ n, e.liveUndos.length = n + 1 := ⟨e.liveUndos.length - 1, by have := hb.pos; have := hb.le; omega⟩
      rw [h.texts]
      show _ = (List.range' 1 e.liveUndos.length).map _
      rw [hn, List.range'_concat, List.map_append, List.map_append, List.map_singleton, List.map_singleton, List.dropLast_concat]
      congr 1
      · apply List.map_congr_left
        intro k hk
        rw [List.mem_range'_1] at hk
        symm
        show visibleText (e.liveUndos.drop k ++ e.dead) l' = visibleText (e.liveUndos.drop k ++ e.dead) l
        apply b6.visibleText
        simp only [List.contains_iff_mem, List.mem_append]
        left
        have : (e.liveUndos.drop k).getLast? = some (e.undoGroupId - 1) := by
          rw [List.getLast?_drop, if_neg (by omega)]; exact hb.last
        exact List.mem_of_getLast? this
      · congr 1
        rw [b2.text_visible]
        apply visibleText_congr_on b2.revsOk
        intro r' hr' g hg
        apply contains_congr
        rw [b7]
        show _ ↔ g ∈ e.liveUndos.drop (1 + 1 * n) ++ e.dead
        rw [h.undone g (hrevs r' hr' g hg), List.drop_eq_nil_of_le (by omega), List.nil_append, mem_dead]
        constructor
        · intro h1
          rcases hb.known g h1 with h2 | h2
          · rw [hc, List.drop_length] at h2; cases h2
          · exact ⟨h1, h2⟩
        · exact fun h1 => h1.1
    · intro g hg
      show g ∈ en.undoneGroups ↔ _
      rw [b7]; exact h.undone g hg
    · show ∀ g ∈ en.undoneGroups, _
      rw [b7]; exact h.fresh
    · show (en.revs.filterMap Revision.group?).Pairwise (· ≤ ·)
      rw [b9, List.filterMap_append, List.pairwise_append]
      refine ⟨h.mono, by simp [b11], ?_⟩
      intro a ha b hbb
      simp [b11] at hbb
      subst hbb
      obtain ⟨r', h1, h2⟩ := List.mem_filterMap.1 ha
      have := hb.lt_next (h.revs r' h1 a h2)
      omega
  refine ⟨l', hcore, ?_, r, b9, b10⟩
  intro r' hr' g hg
  replace hr' : en.revs.getLast? = some r' := hr'
  rw [b9] at hr'
  simp at hr'; subst hr'
  rw [b11] at hg; cases hg
  exact g1

/-- An edit of the current text in the last group. -/
theorem Core.headEdit (h : Core tok e s l) (hc : e.curUndo = e.liveUndos.length) {id : RevId} (hid : e.engine.getHeadRevId = some id)
    (p : Nat) {d : Delta α} (hd : d.Fits e.text) :
    ∃ en, e.engine.tryEditRev tok p (e.undoGroupId - 1) (tok id) d = some (.ok en) ∧ en.text = d.result e.text := by
  obtain ⟨en, h1, h2, _⟩ := C18_head_edit h.reach hid p (e.undoGroupId - 1) d hd.1 (by rw [← h.text]; exact hd.2)
  refine ⟨en, h1, ?_⟩
  have := h2 (by
    cases hk : e.engine.undoneGroups.contains (e.undoGroupId - 1) with
    | false => rfl
    | true => exact absurd (by simpa using hk) (h.last_live hc).2.2)
  rw [← h.text, d.apply_spec _ hd.1 hd.2.symm] at this
  simpa using this.symm

theorem map_key {L L' : List Revision} (h1 : (ids L).Nodup) (h2 : (ids L').Sublist (ids L))
    (h3 : ∀ r ∈ L', ∃ r0 ∈ L, r0.revId = r.revId ∧ r0.group? = r.group?) :
    (L'.filterMap Revision.group?).Sublist (L.filterMap Revision.group?) := by
  let f : RevId → Option Nat := fun i => (L.find? (fun r => r.revId == i)).bind Revision.group?
  have hf : ∀ r ∈ L, f r.revId = r.group? := by
    intro r hr
    have hs : (L.find? (fun r' => r'.revId == r.revId)).isSome := by
      rw [List.find?_isSome]; exact ⟨r, hr, by simp⟩
    obtain ⟨r', hr'⟩ := Option.isSome_iff_exists.1 hs
    have e1 := List.find?_some hr'
    have e2 := List.mem_of_find?_eq_some hr'
    have : r' = r := nodup_ids_inj h1 e2 hr (by simpa using e1)
    show (L.find? _).bind _ = _
    rw [hr', this]; rfl
  have k1 : L.filterMap Revision.group? = (ids L).filterMap f := by
    rw [ids, List.filterMap_map]
    have : ∀ (M : List Revision), (∀ r ∈ M, f r.revId = r.group?) → M.filterMap Revision.group? = M.filterMap (f ∘ Revision.revId) := by
      intro M hM
      induction M with
      | nil => rfl
      | cons r M ih =>
        have := hM r (by simp)
        simp only [List.filterMap_cons, Function.comp, this]
        rw [ih (fun r hr => hM r (by simp [hr]))]
    exact this L hf
  have k2 : L'.filterMap Revision.group? = (ids L').filterMap f := by
    rw [ids, List.filterMap_map]
    have : ∀ (M : List Revision), (∀ r ∈ M, f r.revId = r.group?) → M.filterMap Revision.group? = M.filterMap (f ∘ Revision.revId) := by
      intro M hM
      induction M with
      | nil => rfl
      | cons r M ih =>
        have := hM r (by simp)
        simp only [List.filterMap_cons, Function.comp, this]
        rw [ih (fun r hr => hM r (by simp [hr]))]
    apply this
    intro r hr
    obtain ⟨r0, a1, a2, a3⟩ := h3 r hr
    rw [← a2, hf r0 a1, a3]
  rw [k1, k2]
  exact h2.filterMap _

/-- The garbage collection is used as the engine asks for it. -/
theorem Core.gcOk (h : Core tok e s l) : GcOk e.engine e.gcUndos := by
  have hb : Book _ _ _ _ _ _ := h.ok
  intro pre r post hs _ p g ins del he hg hu _ r' hr' p' g' ins' del' he'
  have hg' : r.group? = some g := by simp [Revision.group?, he]
  have hg'' : r'.group? = some g' := by simp [Revision.group?, he']
  have hle : g' ≤ g := by
    have := h.mono
    rw [hs, List.filterMap_append, List.filterMap_cons, hg', List.pairwise_append] at this
    exact this.2.2 g' (List.mem_filterMap.2 ⟨r', hr', hg''⟩) g (by simp)
  have hgm : g ∈ e.gcUndos := by simpa using hg
  have hgu : g ∉ e.undos := by
    intro hm
    have := (h.undone g (Or.inr hgm)).2 hm
    have h2 : e.engine.undoneGroups.contains g = true := by simpa using this
    rw [h2] at hu; cases hu
  have hlt : ∀ x ∈ e.liveUndos, g < x := by
    rcases hb.old g hgm with h1 | h1
    · exact absurd h1 hgu
    · exact h1
  rcases h.revs r' (by rw [hs]; simp [hr']) g' hg'' with h1 | h1
  · have := hlt g' h1; omega
  · simpa using h1

/-- Garbage collection does not change what can be shown. -/
theorem Core.runGc (h : Core tok e s l) (hh : HeadLive e) : ∃ e' l', e.runGc = some e' ∧ Core tok e' s l' ∧ HeadLive e' ∧
    e'.engine.getHeadRevId = e.engine.getHeadRevId ∧
    e'.lastRevId = e.lastRevId ∧ e'.thisEditType = e.thisEditType ∧ e'.lastEditType = e.lastEditType ∧ e'.forceUndoGroup = e.forceUndoGroup ∧
    e'.curUndo = e.curUndo ∧ e'.liveUndos = e.liveUndos := by
  have hb : Book _ _ _ _ _ _ := h.ok
  unfold Editor.runGc
  split
  case isFalse => exact ⟨e, l, rfl, h, hh, rfl, rfl, rfl, rfl, rfl, rfl, rfl⟩
  case isTrue hc =>
    obtain ⟨en, retain, a1, a2, a3, a4, a5, a6, a7, a8, a9⟩ := h.den.gc e.gcUndos h.gcOk
    have hlast : ∀ r ∈ e.engine.revs, ∀ g, r.group? = some g → g ∈ e.gcUndos → retain.contains r.revId = false := by
      intro r hr g hg hm
      cases hk : retain.contains r.revId with
      | false => rfl
      | true =>
        obtain ⟨pre, rl, k1, k2⟩ := h.den.last
        rw [a8, k2] at hk
        simp at hk
        have : r = rl := nodup_ids_inj h.den.revsOk.nodup hr (by rw [k1]; simp) hk
        subst this
        exact absurd hm (hb.disjoint (hh r k2 g hg))
    have hrevs : ∀ r ∈ en.revs, ∀ g, r.group? = some g → g ∈ e.liveUndos := by
      intro r hr g hg
      obtain ⟨r0, b1, b2, b3⟩ := a6 r hr
      rw [hg] at b3
      have hid : r.revId ∈ ids (e.engine.revs.filter (keptRev retain e.gcUndos)) := by
        rw [← a9]; exact mem_ids.2 ⟨r, hr, rfl⟩
      obtain ⟨r1, c1, c2⟩ := mem_ids.1 hid
      rw [List.mem_filter] at c1
      have : r1 = r0 := nodup_ids_inj h.den.revsOk.nodup c1.1 b1 (by rw [c2, b2])
      subst this
      rcases h.revs r1 b1 g b3 with h1 | h1
      · exact h1
      · have hk := c1.2
        rw [keptRev, b3] at hk
        simp only [goneLab, hlast r1 b1 g b3 h1] at hk
        simp [h1] at hk
    refine ⟨{ e with
      engine := en
      undos := e.undos.filter (fun g => !e.gcUndos.contains g)
      gcUndos := []
      collected := e.collected ++ e.gcUndos }, gcList retain e.gcUndos e.engine.undoneGroups e.engine.revs l, ?_, ?_, ?_, ?_, rfl, rfl, rfl, rfl, rfl, rfl⟩
    · simp [a1]
    · refine ⟨hb.gc, h.reach.gc _ h.gcOk a1, a2, by show e.text = en.text; rw [a3, h.text], ?_, h.cur, ?_, ?_, fun r hr g hg => Or.inl (hrevs r hr g hg), ?_⟩
      · rw [h.texts]
        apply List.map_congr_left
        intro k _
        show visibleText (e.liveUndos.drop k ++ e.dead) l = visibleText (e.liveUndos.drop k ++ (e.undos.filter (fun g => !e.gcUndos.contains g)).filter (fun g => ([] : List Nat).contains g)) _
        symm
        apply gcList_visibleText h.den.revsOk
        · intro r hr g hg hgone
          apply contains_congr
          simp only [goneLab, Bool.and_eq_true] at hgone
          have hm : g ∈ e.gcUndos := by simpa using hgone.2
          rw [h.undone g (Or.inr hm), List.mem_append, mem_dead]
          constructor
          · rintro (h1 | h1)
            · exact absurd hm (hb.disjoint (List.mem_of_mem_drop h1))
            · exact h1.1
          · intro h1; exact Or.inr ⟨h1, hm⟩
        · intro r hr g hg hgone
          apply contains_congr
          have hm : g ∉ e.gcUndos := by
            intro hm
            simp only [goneLab, hlast r hr g hg hm] at hgone
            simp [hm] at hgone
          simp [mem_dead, hm]
      · intro g hg
        show g ∈ en.undoneGroups ↔ g ∈ e.undos.filter _
        replace hg : g ∈ e.liveUndos := by rcases hg with hg | hg; exact hg; cases hg
        rw [a4, h.undone g (Or.inl hg)]
        simp [hb.disjoint hg]
      · show ∀ g ∈ en.undoneGroups, _
        rw [a4]; exact h.fresh
      · exact h.mono.sublist (map_key h.den.revsOk.nodup (by rw [a9]; exact (List.filter_sublist).map _) a6)
    · intro r hr g hg
      exact hrevs r (List.mem_of_getLast? hr) g hg
    · exact a7

end Editor

end Xi
