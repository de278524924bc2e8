import Verif.Props.Merge
import Verif.Props.Editor
import Verif.Props.WrapTasks
import Verif.Props.Trace
import Verif.Props.Annotations
import Verif.Props.Gesture
import Verif.Props.Search
import Verif.Props.Rope
import Verif.Rope.DeltaPosLemmas

/-!
# Smaller functions next to those of other files: C02, C13, C27, C29, C41, C48, C78, C81, C83
-/

namespace Xi

/-! ### Trees (rope/src/tree.rs) -/

theorem pushLeaves_spec : ∀ (ls : List (List UInt8)) {b : TreeBuilder (List UInt8) RopeInfo} {t : List UInt8}, b.Holds t →
    (∀ s ∈ ls, Utf8 s ∧ s.length ≤ 1024) → ∃ b', b.pushLeaves ls = some b' ∧ b'.Holds (t ++ ls.flatten)
  | [], b, t, hb, _ => ⟨b, rfl, by simpa using hb⟩
  | s :: ls, b, t, hb, h => by
    obtain ⟨h1, h2⟩ := h s (by simp)
    obtain ⟨b1, e1, k1⟩ := Rope.pushLeaf_spec hb h1 h2
    obtain ⟨b2, e2, k2⟩ := pushLeaves_spec ls k1 (fun s hs => h s (by simp [hs]))
    refine ⟨b2, ?_, by simpa using k2⟩
    have e2 : ls.foldlM TreeBuilder.pushLeaf b1 = some b2 := e2
    simp [TreeBuilder.pushLeaves, List.foldlM_cons, e1, e2]

/-- **C02.**  A tree made of leaves has their texts one after the other, and is balanced. -/
theorem C02_push_leaves (ls : List (List UInt8)) (h : ∀ s ∈ ls, Utf8 s ∧ s.length ≤ 1024) :
    ∃ r : Rope, (TreeBuilder.new.pushLeaves ls).bind TreeBuilder.build = some r ∧ r.text = ls.flatten ∧ r.Balanced := by
  obtain ⟨b, e, k⟩ := pushLeaves_spec ls TreeBuilder.holds_new h
  obtain ⟨r, h1, h2, h3⟩ := TreeBuilder.build_spec k
  exact ⟨r, by simp [e, h1], by simpa using h2, h3⟩

example : ∃ r : Rope, (TreeBuilder.new.pushLeaves [[97, 98], [], [99]]).bind TreeBuilder.build = some r ∧ r.text = [97, 98, 99] ∧ r.Balanced :=
  C02_push_leaves [[97, 98], [], [99]] (by
    intro s hs
    simp only [List.mem_cons, List.not_mem_nil, or_false] at hs
    rcases hs with rfl | rfl | rfl
    · exact ⟨⟨['a', 'b'], by decide⟩, by decide⟩
    · exact ⟨utf8_nil, by decide⟩
    · exact ⟨⟨['c'], by decide⟩, by decide⟩)

/-- **C02.**  The empty tree is empty; and `is_empty` tells which trees are. -/
theorem C02_empty : (Node.default : Rope).text = [] ∧ (Node.default : Rope).Balanced ∧ (Node.default : Rope).isEmpty = true ∧
    ∀ r : Rope, r.Balanced → (r.isEmpty = true ↔ r.text = []) := by
  refine ⟨rfl, ⟨0, Node.wf_fromLeaf (L := List UInt8) (l := []) ⟨utf8_nil, by decide⟩⟩, rfl, fun r hr => ?_⟩
  have := Rope.len_eq hr
  simp [Node.isEmpty, this]

/-! ### Deltas (rope/src/delta.rs) -/

theorem kept_of {α : Type} {n : Nat} {base : List α} (hb : base.length = n) : ∀ (els : List (DeltaElement α)) {lo : Nat}, ElsWF n lo els →
    ∃ kept : List α, kept.Sublist (base.drop lo) ∧ kept.Sublist (elsText base els) ∧ (elsText base els).length = kept.length + (elsIns els).length
  | [], lo, _ => ⟨[], by simp, by simp, by simp [elsText]⟩
  | .copy b e :: els, lo, h => by
    obtain ⟨h1, h2, h3⟩ := h
    obtain ⟨k, k1, k2, k3⟩ := kept_of hb els h3
    have ht : elsText base (.copy b e :: els) = (base.take e).drop b ++ elsText base els := by simp [elsText]
    refine ⟨(base.take e).drop b ++ k, ?_, ?_, ?_⟩
    · have e1 : base.drop b = (base.take e).drop b ++ base.drop e := by
        conv => lhs; rw [← List.take_append_drop e base]
        rw [List.drop_append_of_le_length]
        have := h3.lo_le
        rw [List.length_take]; omega
      have e2 : (base.drop b).Sublist (base.drop lo) := by
        have : b = lo + (b - lo) := by omega
        rw [this, ← List.drop_drop]
        exact List.drop_sublist _ _
      refine List.Sublist.trans ?_ e2
      rw [e1]
      exact List.Sublist.append_left k1 _
    · rw [ht]
      exact List.Sublist.append_left k2 _
    · rw [ht]
      simp only [List.length_append, elsIns_copy, k3]
      omega
  | .insert s :: els, lo, h => by
    obtain ⟨k, k1, k2, k3⟩ := kept_of hb els h.2
    have ht : elsText base (.insert s :: els) = s ++ elsText base els := by simp [elsText]
    refine ⟨k, k1, ?_, ?_⟩
    · rw [ht]
      exact k2.trans (List.sublist_append_right _ _)
    · rw [ht]
      simp only [List.length_append, elsIns_insert, k3]
      omega

/-- **C13.**  The new text is what an edit keeps of the old one and as much more as `inserts_len` says. -/
theorem C13_inserts_len {α : Type} (d : Delta α) (hd : d.WF) (base : List α) (hb : base.length = d.baseLen) :
    ∃ kept : List α, kept.Sublist base ∧ kept.Sublist (d.result base) ∧ (d.result base).length = kept.length + d.insertsLen := by
  obtain ⟨k, h1, h2, h3⟩ := kept_of hb d.els hd
  exact ⟨k, h1, h2, by rw [insertsLen_eq]; exact h3⟩

/-- **C13.**  And it says 0 only of an edit that inserts nothing. -/
theorem C13_inserts_nothing {α : Type} (d : Delta α) (hd : d.WF) : d.insertsLen = 0 ↔ ∀ s, DeltaElement.insert s ∉ d.els := by
  rw [insertsLen_eq]
  have gen : ∀ (els : List (DeltaElement α)) (lo : Nat), ElsWF d.baseLen lo els → ((elsIns els).length = 0 ↔ ∀ s, DeltaElement.insert s ∉ els) := by
    intro els
    induction els with
    | nil => simp
    | cons el els ih =>
      intro lo h
      cases el with
      | copy b e => simpa using ih e h.2.2
      | insert s =>
        have h0 : s ≠ [] := h.1
        constructor
        · intro hz
          simp [h0] at hz
        · intro hz
          exact absurd (by simp) (hz s)
  exact gen d.els 0 hd

example : (⟨[.copy 0 1, .insert [7, 8], .copy 2 3, .insert [9]], 3⟩ : Delta Nat).WF ∧
    (⟨[.copy 0 1, .insert [7, 8], .copy 2 3, .insert [9]], 3⟩ : Delta Nat).insertsLen = 3 := by decide

/-! ### Undo groups and replicas (core-lib/src/editor.rs) -/

namespace Editor

variable {α : Type} {tok : RevId → Nat} {e : Editor α}

/-- **C27.**  Merging another replica into the editor never fails, if the revision the editor last told of is still
there.  The text is that of the merged engine, the revision last told of is the current one, and the next undo group is
one that no edit has. -/
theorem C27_merge_new_state {other : Engine α} (h : Replicas tok e.engine other) (hl : e.lastRevId ∈ ids e.engine.revs) :
    ∃ e', e.mergeNewState tok other = some e' ∧ e.engine.merge other = some e'.engine ∧ e'.text = e'.engine.text ∧
      e'.engine.getHeadRevId = some e'.lastRevId ∧ (∀ r ∈ e'.engine.revs, ∀ g, r.group? = some g → g < e'.undoGroupId) ∧
      e'.liveUndos = e.liveUndos ∧ e'.curUndo = e.curUndo ∧ e'.undos = e.undos ∧ e'.gcUndos = e.gcUndos ∧ e'.pristineRevId = e.pristineRevId := by
  obtain ⟨Z, pr, grp, hp⟩ := h.peers
  obtain ⟨m, m1, m2, m3, _⟩ := hp.merge
  have hd := m2.left.den
  obtain ⟨last, hlast⟩ : ∃ r, m.revs.getLast? = some r := ⟨_, List.getLast?_eq_some_getLast hd.ne⟩
  have hmem : e.lastRevId ∈ ids m.revs := by rw [m3]; exact List.mem_append_left _ hl
  have htop : m.maxUndoGroupId = some last.maxUndoSoFar := by simp [Engine.maxUndoGroupId, hlast]
  have hhead : m.getHeadRevId = some last.revId := by simp [Engine.getHeadRevId, hlast]
  have hgrp : ∀ r ∈ m.revs, ∀ g, r.group? = some g → g < last.maxUndoSoFar + 1 := by
    intro r hr g hg
    have h1 := hd.maxGroup r hr g hg
    have h2 : r.maxUndoSoFar ≤ last.maxUndoSoFar := by
      obtain ⟨init, hi⟩ := List.getLast?_eq_some_iff.1 hlast
      have hs := hd.maxSorted
      rw [hi] at hs hr
      rcases List.mem_append.1 hr with hr | hr
      · simp only [List.map_append, List.pairwise_append] at hs
        exact hs.2.2 _ (List.mem_map_of_mem hr) _ (by simp)
      · simp at hr; subst hr; exact Nat.le_refl _
    omega
  simp only [mergeNewState, m1, htop, Option.bind_eq_bind, Option.bind_some, commitDelta, changed, hhead, Option.pure_def]
  by_cases c : last.revId = e.lastRevId
  · simp only [c, ne_eq, not_true_eq_false, decide_false, Bool.false_eq_true, if_false, Option.bind_some]
    exact ⟨_, rfl, rfl, rfl, by rw [hhead, c], hgrp, rfl, rfl, rfl, rfl, rfl⟩
  · obtain ⟨x, hx⟩ : ∃ x, m.getRev tok (tok e.lastRevId) = some (some x) := by
      cases hf : m.findRevToken tok (tok e.lastRevId) with
      | none =>
        obtain ⟨r, hr, he⟩ := mem_ids.1 hmem
        have := findLastIdx_none.1 hf r hr
        simp [he] at this
      | some ix =>
        obtain ⟨pre, r, post, h1, h2, _⟩ := Engine.findRevToken_some hf
        subst h2
        exact ⟨_, hd.getRev h1 hf⟩
    obtain ⟨d, hd1, _⟩ := hd.deltaRevHead hx
    simp only [ne_eq, c, not_false_eq_true, decide_true, if_true, hd1, hx, Option.bind_some]
    exact ⟨_, rfl, rfl, rfl, hhead, hgrp, rfl, rfl, rfl, rfl, rfl⟩

/-- The second of the two replicas of C27's example, in an editor; it is merged with the first one. -/
example : (exReplicas.bind fun p => (withText (fun r => 10 * r.session1 + r.num) ([] : List Nat)).bind fun e =>
    (mergeNewState (fun r => 10 * r.session1 + r.num) { e with engine := p.2, text := p.2.text, lastRevId := ⟨1, 0, 1⟩ } p.1).map fun e' =>
      (e'.text, decide (e'.lastRevId ∈ ids p.1.revs), e'.undoGroupId)) = some ([1, 4, 5], true, 4) ∧
    (exReplicas.map fun p => decide (⟨1, 0, 1⟩ ∈ ids p.2.revs)) = some true := by decide +kernel

/-- **C29.**  The active group is the last of the live ones. -/
theorem C29_active_group (h : Run tok e) : e.getActiveUndoGroup ∈ e.liveUndos ∧ ∀ g ∈ e.liveUndos, g ≤ e.getActiveUndoGroup := by
  have hb := C29_bounded h
  have hs := (C29_one_place h).2.2.2
  obtain ⟨g, hg⟩ : ∃ g, e.liveUndos.getLast? = some g := ⟨_, List.getLast?_eq_some_getLast (by intro h0; simp [h0] at hb; omega)⟩
  obtain ⟨init, hi⟩ := List.getLast?_eq_some_iff.1 hg
  have : e.getActiveUndoGroup = g := by simp [getActiveUndoGroup, hg]
  rw [this, hi]
  refine ⟨by simp, fun x hx => ?_⟩
  rw [hi] at hs
  rcases List.mem_append.1 hx with hx | hx
  · have := (List.pairwise_append.1 hs).2.2 x hx g (by simp); omega
  · simp at hx; omega

example : ∃ e : Editor Nat, Run exTok e ∧ e.getActiveUndoGroup = 24 := by
  have h : (exRun 0 [] ((List.range 24).map fun i => exType i i [i])).map (fun e => e.getActiveUndoGroup) = some 24 := by decide +kernel
  obtain ⟨e, h1, h2⟩ := Option.map_eq_some_iff.1 h
  exact ⟨e, exRun_run h1, h2⟩

/-- **C29.**  While a revision is on its way to a plugin no group is collected. -/
theorem C29_in_flight (e : Editor α) : e.incrementRevsInFlight.runGc = some e.incrementRevsInFlight ∧
    e.incrementRevsInFlight.decRevsInFlight = e.runGc := by
  simp [incrementRevsInFlight, runGc, decRevsInFlight]

end Editor

/-! ### Traces (trace/src/fixed_lifo_deque.rs) -/

/-- **C41.**  Splitting gives the first items and the rest, in order, and the limit stays what it was. -/
theorem C41_split_off {α : Type} (d : FixedLifoDeque α) (i : Nat) :
    (d.splitOff i = none ↔ d.storage.length < i) ∧
    ∀ a b, d.splitOff i = some (a, b) → a.storage ++ b.storage = d.storage ∧ a.storage.length = i ∧ a.limit = d.limit ∧ b.limit = d.limit := by
  unfold FixedLifoDeque.splitOff
  split
  · rename_i h
    refine ⟨by simp; omega, fun a b hab => ?_⟩
    simp only [Option.some.injEq, Prod.mk.injEq] at hab
    obtain ⟨rfl, rfl⟩ := hab
    exact ⟨by simp, by simp; omega, rfl, rfl⟩
  · rename_i h
    exact ⟨by simp; omega, by simp⟩

example : (⟨[1, 2, 3], 5⟩ : FixedLifoDeque Nat).splitOff 1 = some (⟨[1], 5⟩, ⟨[2, 3], 5⟩) := by rfl

/-! ### Wrapping (core-lib/src/linewrap.rs) -/

/-- **C48.**  An interval needs wrapping exactly if it has a position that waits for it. -/
theorem C48_needs_wrap (work : List Interval) (iv : Interval) :
    WrapTasks.needsWrap work iv = true ↔ ∃ p, iv.Has p ∧ Pending work p := by
  simp only [WrapTasks.needsWrap, List.any_eq_true, Pending, Interval.intersect, Interval.isEmpty, Interval.Has]
  constructor
  · rintro ⟨t, ht, h⟩
    simp at h
    exact ⟨max t.start iv.start, by omega, t, ht, by omega⟩
  · rintro ⟨p, hp, t, ht, h⟩
    exact ⟨t, ht, by simp; omega⟩

example : WrapTasks.needsWrap [⟨0, 5⟩, ⟨9, 20⟩] ⟨4, 7⟩ = true ∧ WrapTasks.needsWrap [⟨0, 5⟩, ⟨9, 20⟩] ⟨5, 9⟩ = false := by decide

/-! ### Annotations and selections (core-lib/src/annotations.rs, core-lib/src/view.rs) -/

namespace Gesture

variable {V : Type}

/-- **C83.**  Clearing drops what this plugin has told, and nothing else. -/
theorem C83_clear {store : AnnotationStore V} (h : StoreInv store) (plugin : Nat) : StoreInv (store.clear plugin) ∧
    (∀ kind, notesOf (store.clear plugin) plugin kind = none) ∧
    ∀ p, p ≠ plugin → ∀ kind, notesOf (store.clear plugin) p kind = notesOf store p kind := by
  refine ⟨⟨h.plugins.sublist List.filter_sublist, fun e he => h.kinds e (List.mem_filter.1 he).1⟩, fun kind => ?_, fun p hp kind => ?_⟩
  · have : (store.clear plugin).find? (fun e => e.1 = plugin) = none := by
      rw [List.find?_eq_none]
      intro e he
      simpa using (List.mem_filter.1 he).2
    rw [notesOf, this]
    rfl
  · simp only [notesOf, AnnotationStore.clear, List.find?_filter]
    congr 2
    funext e
    by_cases c : e.1 = p <;> simp [c, hp]

/-- **C78.**  After an edit the new selection is set and the screen shows its last region.  No line is marked for drawing. -/
theorem C78_for_edit {g : Graphemes} {ls : Wrapping} {r : Rope} {v : View} (hf : Fits g ls r) (hh : 0 < v.height) {sel : Selection} (hs : Valid r sel) :
    ∃ v' q n, v.setSelectionForEdit ls r sel = some v' ∧ v'.selection = sel ∧ v'.drag = v.drag ∧ v'.height = v.height ∧ v'.inval = v.inval ∧
      sel.getLast? = some q ∧ LineOf ls r q.stop n ∧ ScrolledTo v.firstLine v.height n v'.firstLine ∧ v'.scrollTo = some q.stop := by
  cases h : sel.getLast? with
  | none => simp at h; exact absurd h hs.some
  | some q =>
    obtain ⟨n, hn⟩ := LineOf.exists hf q.stop
    have hq : q ∈ sel := List.mem_of_getLast? h
    obtain ⟨first, h1, h2⟩ := scroll_eq (v := { v with selection := sel }) hf h (hs.ok q hq).2 hh hn
    exact ⟨_, q, n, h2, rfl, rfl, rfl, rfl, rfl, hn, h1, rfl⟩

/-- What plugin 7 has told is forgotten. -/
example : (notesOf lintStore 7 (.other "lint")).isSome = true ∧ (lintStore.clear 7).length = 0 ∧ (lintStore.clear 8).length = 1 := by decide +kernel

/-- The cursor is moved to the second line. -/
example : Fits plainGraphemes (noWrap gestureText) gestureText ∧ 0 < View.new.height ∧ Valid gestureText [.new 9 9] ∧
    (View.new.setSelectionForEdit (noWrap gestureText) gestureText [.new 9 9]).map (fun v => (v.inval.length, v.scrollTo)) = some (0, some 9) :=
  ⟨noWrap_fits gestureText_balanced, by decide, Valid.single (small_region (by decide +kernel) (by decide +kernel)), by decide +kernel⟩

end Gesture

/-! ### Searching (core-lib/src/view.rs) -/

namespace ViewSearch

open Find FindState

/-- **C81 (in part).**  After an edit each query is still the same query, and what is marked are matches; under the conditions of
`C72_edit_sound_partial`. -/
theorem C81_edit_partial {lower : CaseTable} {text : Rope} (hl : lower.Ok) (hn : lower.KeepsNewline) {base : List UInt8} (ht : text.Balanced) {d : Delta UInt8} (hd : d.WF)
    (hbl : base.length = d.baseLen) (htext : text.text = d.result base) (hsize : text.text.length < 2 ^ 64 - 1) {s : ViewSearch} (hs : s.Ok)
    (hq : ∀ f ∈ s.finds, Good lower base f.2 ∧ f.2.searchString ≠ none)
    (hcase : Separate d.baseLen 0 false d.els ∨ d.summary.1.2 + d.summary.2 ≤ text.text.length) :
    ∃ s', s.afterEdit lower false text d = some s' ∧ s'.Ok ∧ s'.visible = s.visible ∧ s'.inProgress = s.inProgress ∧
      Each (fun f f' => f'.1 = f.1 ∧ SameQuery f.2 f'.2 ∧ Good lower text.text f'.2) s.finds s'.finds := by
  obtain ⟨m, h1, h2⟩ := mapM_each (l := s.finds) (f := fun f => do return (f.1, ← f.2.updateHighlights lower false text d))
    (R := fun f f' => f'.1 = f.1 ∧ SameQuery f.2 f'.2 ∧ Good lower text.text f'.2) (by
      intro f hf
      obtain ⟨g1, g2⟩ := hq f hf
      obtain ⟨pat, hp⟩ := Option.ne_none_iff_exists'.1 g2
      obtain ⟨a1, a2, a3⟩ := g1 pat hp
      obtain ⟨f', b1, b2, b3⟩ := C72_edit_sound_partial hl hn ht hd hbl htext hsize hp a1 a2 a3 hcase
      refine ⟨(f.1, f'), by simp [b1], rfl, b2, fun pat' hp' => ?_⟩
      have hp' : f'.searchString = some pat' := hp'
      rw [← b2.1, hp, Option.some.injEq] at hp'
      subst hp'
      show Regular lower f'.caseMatching pat ∧ f'.wholeWords = false ∧ Sound lower text.text f'.caseMatching pat f'.occurrences
      rw [← b2.2.1, ← b2.2.2]
      exact ⟨a1, a2, b3⟩)
  have hids : ∀ {l m : List (Nat × FindState)}, Each (fun f f' => f'.1 = f.1 ∧ SameQuery f.2 f'.2 ∧ Good lower text.text f'.2) l m → m.map Prod.fst = l.map Prod.fst := by
    intro l m h
    induction h with
    | nil => rfl
    | cons h _ ih => simp [ih, h.1]
  refine ⟨{ s with finds := m }, by rw [afterEdit, h1]; rfl, ⟨by rw [show (ViewSearch.finds { s with finds := m }) = m from rfl, hids h2]; exact hs.nodup, ?_⟩, rfl, rfl, h2⟩
  intro f hf
  have : f.1 ∈ s.finds.map Prod.fst := by rw [← hids h2]; exact List.mem_map_of_mem hf
  obtain ⟨x, hx, e⟩ := List.mem_map.1 this
  rw [← e]
  exact hs.le x hx

/-- The edit of C72's example, with two queries. -/
example : ((ViewSearch.afterEdit someLower false { ViewSearch.new with finds := [(1, query ['a', 'b'] false [.new 0 2, .new 3 5]), (2, query ['b'] false [.new 1 2, .new 4 5])] }
    (note ['x', 'y', 'b', '\n', 'a', 'b']) ⟨[.insert [120, 121], .copy 1 5], 5⟩).map fun s => s.finds.map fun f => (f.1, f.2.occurrences)) =
    some [(1, [.new 4 6]), (2, [.new 2 3, .new 5 6])] := by decide +kernel

end ViewSearch

end Xi
