import Verif.Rope.EngineReach
import Verif.Props.Delta

/-!
# The edit engine (rope/src/engine.rs): C18–C26, and the engine part of C30

`tok` is the hash that turns revision ids into the tokens clients see
(`RevId::token`, engine.rs:173-180); nothing is assumed about it unless a
hypothesis says so.
-/

namespace Xi

variable {α : Type} {tok : RevId → Nat} {e : Engine α}

open Chr

/-- Two engines for the examples: a document `1 2 3` made in group 0, then group
1 inserts `4` at the end and group 2 (computed against the first revision)
deletes `2` and inserts `5` before it. -/
def exTok (r : RevId) : Nat := r.num
def exEngine : Option (Engine Nat) := do
  let e ← Engine.new exTok [1, 2, 3]
  let e ← e.editRev exTok 1 1 1 ⟨[.copy 0 3, .insert [4]], 3⟩
  e.editRev exTok 1 2 1 ⟨[.copy 0 1, .insert [5], .copy 2 3], 3⟩

theorem editRev_reach {e e' : Engine α} (h : Engine.Reach tok e) {p g t : Nat} {d : Delta α} (hd : d.WF)
    (he : e.editRev tok p g t d = some e') : Engine.Reach tok e' := by
  simp only [Engine.editRev, Option.bind_eq_bind, Option.bind_eq_some_iff] at he
  obtain ⟨x, h1, h2⟩ := he
  cases x with
  | error err => simp at h2
  | ok y => simp at h2; subst h2; exact h.edit p g t d hd h1

/-- A document created with initial contents is reachable. -/
theorem new_reach (tok : RevId → Nat) (initial : List α) (h : Engine.new tok initial = some e) :
    Engine.Reach tok e := by
  rw [Engine.new] at h
  obtain ⟨D, h1, h2⟩ := Engine.empty_eq (α := α)
  simp only [h2, Option.bind_eq_bind, Option.bind_some] at h
  split at h
  · cases h; exact .empty h2
  · simp only [Option.bind_eq_some_iff] at h
    obtain ⟨first, _, d, h3, h4⟩ := h
    obtain ⟨d', h5, h6, _⟩ := C13_simple_edit [] initial 0 0 (Nat.le_refl _) (Nat.le_refl _)
    rw [show ([] : List α).length = 0 from rfl, h3] at h5
    cases h5
    exact editRev_reach (.empty h2) h6 h4

example : ∃ e, exEngine = some e ∧ Engine.Reach exTok e ∧ e.text = [1, 5, 3, 4] := by
  have h : exEngine.map (·.text) = some [1, 5, 3, 4] := by decide +kernel
  cases he : exEngine with
  | none => rw [he] at h; cases h
  | some e =>
    rw [he] at h
    refine ⟨e, rfl, ?_, by simpa using h⟩
    simp only [exEngine, Option.bind_eq_bind, Option.bind_eq_some_iff] at he
    obtain ⟨e1, h1, e2, h2, h3⟩ := he
    exact editRev_reach (editRev_reach (new_reach _ _ h1) (by decide) h2) (by decide) h3

/-! ### C18 -/

/-- **C18.** Committing an edit against the current revision gives the edit
applied to the current text.  (If the edit belongs to a group that is currently
undone, the text does not change.) -/
theorem C18_head_edit (h : Engine.Reach tok e) {id : RevId} (hid : e.getHeadRevId = some id) (p g : Nat)
    (d : Delta α) (hd : d.WF) (hl : d.baseLen = e.text.length) :
    ∃ e', e.tryEditRev tok p g (tok id) d = some (.ok e') ∧
      (e.undoneGroups.contains g = false → d.apply e.text = some e'.text) ∧
      (e.undoneGroups.contains g = true → e'.text = e.text) := by
  obtain ⟨l, hl'⟩ := h.den
  obtain ⟨pre, r, a1, a2, a3⟩ := hl'.head_find tok hid
  have hlen : d.baseLen = zeros (revMask e l []) := by
    rw [hl, hl'.text, hl'.revMask_nil, keep_length _ _ (by simp)]
  obtain ⟨e', l', items, head', b1, b2, b3, b4, b5, _⟩ := hl'.edit_full a1 a3 p g hd hlen
  refine ⟨e', b1, fun hg => ?_, fun hg => by rw [b4, if_pos hg]⟩
  rw [d.apply_spec _ hd hl.symm, b4, hg, b5 rfl]
  rfl

example : ∃ e e', exEngine = some e ∧ e.getHeadRevId = some ⟨1, 0, 3⟩ ∧
    e.tryEditRev exTok 1 7 3 ⟨[.copy 2 4, .insert [9]], 4⟩ = some (.ok e') ∧ e'.text = [3, 4, 9] := by
  have h : (exEngine.bind fun e => (e.tryEditRev exTok 1 7 3 ⟨[.copy 2 4, .insert [9]], 4⟩).bind fun
      | .ok e' => some (e.getHeadRevId, e'.text) | .error _ => none) = some (some ⟨1, 0, 3⟩, [3, 4, 9]) := by
    decide +kernel
  simp only [Option.bind_eq_some_iff] at h
  obtain ⟨e, h1, x, h2, h3⟩ := h
  cases x with
  | error _ => cases h3
  | ok e' =>
    simp only [Option.some.injEq, Prod.mk.injEq] at h3
    exact ⟨e, e', h1, h3.1, h2, h3.2⟩

/-! ### C22 -/

/-- **C22.** An edit `d` computed against the older text `base` can always be
committed, and is combined with the current text character by character: there
is one sequence of characters (`items`) in which `base`, the current text and
the new text all appear, in which `d` acts on `base` exactly as it says, and the
new text consists of the inserted characters and the characters of the current
text that `d` does not delete (`Combines`). -/
theorem C22_stale_edit (h : Engine.Reach tok e) {t : Nat} {base : List α}
    (ht : e.getRev tok t = some (some base)) (p g : Nat) (d : Delta α) (hd : d.WF)
    (hl : d.baseLen = base.length) :
    ∃ e' items head', e.tryEditRev tok p g t d = some (.ok e') ∧
      Combines d base e.text head' items ∧
      (e.undoneGroups.contains g = false → e'.text = head') ∧
      (e.undoneGroups.contains g = true → e'.text = e.text) := by
  obtain ⟨l, hl'⟩ := h.den
  obtain ⟨pre, r, post, a1, a2, a3, a4⟩ := hl'.getRev_inv ht
  subst a4
  have hlen : d.baseLen = zeros (revMask e l post) := by
    rw [hl, keep_length _ _ (by simp [hl'.revMask_length a1])]
  obtain ⟨e', l', items, head', b1, b2, b3, b4, b5, _⟩ := hl'.edit_full a1 a2 p g hd hlen
  exact ⟨e', items, head', b1, b3, fun hg => by rw [b4, hg]; rfl, fun hg => by rw [b4, if_pos hg]⟩

example : exEngine.bind (fun e => (e.getRev exTok 2).bind fun b =>
    (e.editRev exTok 1 8 2 ⟨[.copy 0 2, .insert [8], .copy 3 4], 4⟩).map fun e' => (b, e.text, e'.text)) =
    some (some [1, 2, 3, 4], [1, 5, 3, 4], [1, 5, 8, 4]) := by decide +kernel

/-! ### C19 -/

/-- The union text `U` ties text, deleted text and the recorded deletions of `e`
together: deleting the recorded deletions from `U` leaves the text, and deleting
their complement leaves the stored deleted text. -/
def Engine.Consistent (e : Engine α) : Prop :=
    ∃ U c, e.deletesFromUnion.counts.length = U.length ∧ e.deletesFromUnion.deleteFrom U = some e.text ∧
      e.deletesFromUnion.complement = some c ∧ c.deleteFrom U = some e.tombstones ∧
      e.text.length + e.tombstones.length = U.length

theorem Den.consistent {l : List (Chr α)} (hl : Den e l) : e.Consistent := by
  obtain ⟨c, c1, c2⟩ := hl.dels.complement
  have h1 : e.deletesFromUnion.deleteFrom (l.map val) = some e.text := by
    rw [Subset.deleteFrom_spec _ _ (by rw [hl.length_dels]; simp), hl.dels.2, hl.text]
  have h2 : c.deleteFrom (l.map val) = some e.tombstones := by
    rw [Subset.deleteFrom_spec _ _ (by rw [c2.2]; simp), c2.2, hl.tombs]
  refine ⟨l.map val, c, by rw [hl.length_dels]; simp, h1, c1, h2, ?_⟩
  rw [hl.text, hl.tombs, keep_length _ _ (by simp), keep_length _ _ (by simp)]
  have hz : ∀ m : List Nat, zeros m + zeros (flipMask m) = m.length := by
    intro m
    induction m with
    | nil => rfl
    | cons x m ih => cases x <;> simp [flipMask, zeros_cons_ne] at ih ⊢ <;> omega
  rw [hz]; simp


/-- No operation of the engine panics: reading revisions, computing differences,
edits, undo, and garbage collection under the editor's condition (`GcOk`). -/
def Engine.Safe (tok : RevId → Nat) (e : Engine α) : Prop :=
    (∀ t, (e.getRev tok t).isSome) ∧
    (∀ t, (e.tryDeltaRevHead tok t).isSome) ∧
    (∀ p g t (d : Delta α), d.WF → (e.tryEditRev tok p g t d).isSome) ∧
    (∀ S, (e.undo S).isSome) ∧
    (∀ gcs, GcOk e gcs → (e.gc gcs).isSome) ∧
    (∀ a b, (e.isEquivalentRevision a b).isSome) ∧
    e.getHeadRevId.isSome

theorem Den.safe [Nonempty α] {l : List (Chr α)} (hl : Den e l) : e.Safe tok := by
  have hcu : ∀ ix p, findLastIdx p e.revs = some ix → ∃ S, e.deletesFromCurUnionForIndex ix = some S := by
    intro ix p hf
    obtain ⟨pre, r, post, h1, h2, _⟩ := findLastIdx_some hf
    subst h2
    obtain ⟨S, h3, _⟩ := hl.cur_union h1
    exact ⟨S, h3⟩
  have hget : ∀ t, e.findRevToken tok t = none ∨ ∃ x, e.getRev tok t = some (some x) := by
    intro t
    cases hf : e.findRevToken tok t with
    | none => exact Or.inl rfl
    | some ix =>
      obtain ⟨pre, r, post, h1, h2, _⟩ := Engine.findRevToken_some hf
      subst h2
      exact Or.inr ⟨_, hl.getRev h1 hf⟩
  refine ⟨?_, ?_, ?_, ?_, ?_, ?_, ?_⟩
  · intro t
    rcases hget t with ht | ⟨x, hx⟩
    · simp [Engine.getRev, ht]
    · simp [hx]
  · intro t
    rcases hget t with ht | ⟨x, hx⟩
    · simp [Engine.tryDeltaRevHead, ht]
    · obtain ⟨d, h1, _⟩ := hl.deltaRevHead hx
      simp [h1]
  · intro p g t d hd
    rcases hget t with ht | ⟨x, hx⟩
    · simp [Engine.edit_missing ht]
    · obtain ⟨pre, r, post, a1, a2, _⟩ := hl.getRev_inv hx
      by_cases hlen : d.baseLen = zeros (revMask e l post)
      · obtain ⟨e', _, _, _, b1, _⟩ := hl.edit_full a1 a2 p g hd hlen
        simp [b1]
      · simp [hl.edit_malformed a1 a2 p g hd hlen]
  · intro S
    obtain ⟨e', h1, _⟩ := hl.undo_full S
    simp [h1]
  · intro gcs hok
    obtain ⟨e', _, h1, _⟩ := hl.gc gcs hok
    simp [h1]
  · intro a b
    simp only [Engine.isEquivalentRevision, Engine.findRev]
    cases ha : findLastIdx (fun r => r.revId == a) e.revs with
    | none =>
      cases hb : findLastIdx (fun r => r.revId == b) e.revs with
      | none => simp
      | some j =>
        obtain ⟨S, hS⟩ := hcu j _ hb
        simp [hS]
    | some i =>
      obtain ⟨S, hS⟩ := hcu i _ ha
      cases hb : findLastIdx (fun r => r.revId == b) e.revs with
      | none => simp [hS]
      | some j =>
        obtain ⟨S', hS'⟩ := hcu j _ hb
        simp [hS, hS']
  · obtain ⟨pre, r, _, h2⟩ := hl.last
    simp [Engine.getHeadRevId, h2]


/-- **C19.** In all reachable states text, deleted text and the recorded
deletions fit together. -/
theorem C19_consistent (h : Engine.Reach tok e) : e.Consistent := by
  obtain ⟨l, hl⟩ := h.den
  exact hl.consistent

/-- **C19.** No operation on a reachable state panics. -/
theorem C19_no_panic [Nonempty α] (h : Engine.Reach tok e) : e.Safe tok := by
  obtain ⟨l, hl⟩ := h.den
  exact hl.safe

/-- The condition on garbage collection is needed: collecting a live group that
is not the oldest, and then another one, panics in the engine.  (Groups 1, 2 and
3 each append a character to `1 2 3`; first 1, then 2 is collected.) -/
theorem C19_gc_panics_without_condition :
    ∃ e : Engine Nat, Engine.Reach exTok e ∧ ∃ e', e.gc [1] = some e' ∧ e'.gc [2] = none := by
  let f : Option (Engine Nat) := do
    let e ← Engine.new exTok [1, 2, 3]
    let e ← e.editRev exTok 1 1 1 ⟨[.copy 0 3, .insert [4]], 3⟩
    let e ← e.editRev exTok 1 2 2 ⟨[.copy 0 4, .insert [5]], 4⟩
    e.editRev exTok 1 3 3 ⟨[.copy 0 5, .insert [6]], 5⟩
  have h : f.bind (fun e => (e.gc [1]).map fun e' => (e'.gc [2]).isSome) = some false := by decide +kernel
  simp only [Option.bind_eq_some_iff, Option.map_eq_some_iff] at h
  obtain ⟨e, he, e', h1, h2⟩ := h
  refine ⟨e, ?_, e', h1, by simpa using h2⟩
  simp only [f, Option.bind_eq_bind, Option.bind_eq_some_iff] at he
  obtain ⟨e1, h1, e2, h2, e3, h3, h4⟩ := he
  exact editRev_reach (editRev_reach (editRev_reach (new_reach _ _ h1) (by decide) h2) (by decide) h3) (by decide) h4

/-! ### C20, C21 -/

/-- **C20.** The current revision reads back as the current text, and whatever
edits and undos follow, every revision keeps reading back as the same text (as
long as no later revision gets the same token). -/
theorem C20_revisions_read_back (h : Engine.Reach tok e) {e' : Engine α} (hs : Engine.Steps tok e e') :
    (∀ id, e.getHeadRevId = some id → (∀ r ∈ e'.revs.drop e.revs.length, tok r.revId ≠ tok id) →
      e'.getRev tok (tok id) = some (some e.text)) ∧
    (∀ t x, e.getRev tok t = some (some x) → (∀ r ∈ e'.revs.drop e.revs.length, tok r.revId ≠ t) →
      e'.getRev tok t = some (some x)) := by
  obtain ⟨l, hl⟩ := h.den
  exact ⟨fun id hid hn => (h.steps_read hs (hl.head_read tok hid)).2 hn,
    fun t x hx hn => (h.steps_read hs hx).2 hn⟩

example : exEngine.bind (fun e => (e.undo [1]).bind fun e' =>
    some [e.getRev exTok 0, e'.getRev exTok 1, e'.getRev exTok 2, e'.getRev exTok 3, e'.getRev exTok 4]) =
    some [some (some []), some (some [1, 2, 3]), some (some [1, 2, 3, 4]), some (some [1, 5, 3, 4]),
      some (some [1, 5, 3])] := by
  decide +kernel

/-- **C21.** The difference between a retained revision and the head, applied to
the text of that revision, gives the current text. -/
theorem C21_delta_to_head (h : Engine.Reach tok e) {t : Nat} {x : List α} (hx : e.getRev tok t = some (some x)) :
    ∃ d, e.tryDeltaRevHead tok t = some (.ok d) ∧ d.WF ∧ d.apply x = some e.text := by
  obtain ⟨l, hl⟩ := h.den
  obtain ⟨d, h1, h2, h3, h4⟩ := hl.deltaRevHead hx
  exact ⟨d, h1, h2, by rw [d.apply_spec _ h2 h3.symm, h4]⟩

example : exEngine.bind (fun e => (e.tryDeltaRevHead exTok 1).bind fun
    | .ok d => some (d.els, d.apply [1, 2, 3]) | .error _ => none) =
    some ([.copy 0 1, .insert [5], .copy 2 3, .insert [4]], some [1, 5, 3, 4]) := by decide +kernel

/-! ### C23, C24 -/

/-- **C23.** Every reachable state has a character-by-character account `l`
(`R e l`): it starts empty, every committed edit is recorded in it as what it is
(`Records`), undo only changes the set of undone groups, garbage collection makes
edits permanent (`collect`), and the text is what is visible: the characters
whose inserting edit is not undone and all of whose deleting edits are. -/
theorem C23_account (tok : RevId → Nat) : ∃ R : Engine α → List (Chr α) → Prop,
    (∀ e s e', Engine.empty = some e → e.setSessionId s = some e' → R e [] ∧ R e' []) ∧
    (∀ e l, R e l → e.text = visibleText e.undoneGroups l) ∧
    (∀ e l, R e l → ∀ p g t d e', d.WF → e.tryEditRev tok p g t d = some (.ok e') →
      ∃ base l', e.getRev tok t = some (some base) ∧ Records e.nextRevId g d base l l' ∧ R e' l' ∧
        e'.undoneGroups = e.undoneGroups) ∧
    (∀ e l, R e l → ∀ S, ∃ e', e.undo S = some e' ∧ R e' l ∧ e'.undoneGroups = S ∧ e'.text = visibleText S l) ∧
    (∀ e l, R e l → ∀ gcs, GcOk e gcs → ∃ e' head, e.gc gcs = some e' ∧ e.getHeadRevId = some head ∧
      R e' (collect (fun a => a.id != head && gcs.contains a.group) e.undoneGroups l) ∧
      e'.undoneGroups = e.undoneGroups) := by
  refine ⟨Den, ?_, fun e l h => h.text_visible, ?_, ?_, ?_⟩
  · intro e s e' he hs
    obtain ⟨D, h1, h2⟩ := Engine.empty_eq (α := α)
    rw [h2] at he; cases he
    simp [Engine.setSessionId] at hs
    rw [← hs]
    exact ⟨den_empty D h1 _, den_empty D h1 _⟩
  · intro e l h p g t d e' hd hok
    obtain ⟨pre, r, post, a1, a2, a3⟩ := h.edit_inv hok
    obtain ⟨e1, l', items, head', b1, b2, b3, _, _, b4, b5, b6, _⟩ := h.edit_full a1 a2 p g hd a3
    rw [hok] at b1; cases b1
    have hi : ∀ c : Chr α, (c.insMark e.nextRevId == 0) = !c.insertedBy e.nextRevId := by
      intro c; unfold insMark; cases c.insertedBy e.nextRevId <;> rfl
    refine ⟨_, l', h.getRev a1 a2, ⟨?_, ?_, b5.del, items, _, _, b3, b4⟩, b2, b6⟩
    · rw [← b5.old]
      congr 2
      funext c
      exact (hi c).symm
    · intro c hc hins
      refine b5.new c hc ?_
      unfold insMark
      rw [hins]; simp
  · intro e l h S
    obtain ⟨e', h1, h2, h3, _, h4, _⟩ := h.undo_full S
    exact ⟨e', h1, h2, h3, h4⟩
  · intro e l h gcs hok
    obtain ⟨e', retain, h1, h2, _, h3, _, _, _, h4, _⟩ := h.gc gcs hok
    obtain ⟨pre, r, _, h5⟩ := h.last
    refine ⟨e', r.revId, h1, by simp [Engine.getHeadRevId, h5], ?_, h3⟩
    rw [gcList_eq_collect h.revsOk, h4, h5] at h2
    have : goneLab ((some r).toList.map Revision.revId) gcs = fun a => a.id != r.revId && gcs.contains a.group := by
      funext a
      unfold goneLab
      congr 1
      simp [bne]
      rw [Bool.eq_iff_iff]; simp
    rw [← this]
    exact h2

/-- **C23.** Undoing everything that happened since some state, in whatever
order it happened, brings back the text of that state. -/
theorem C23_undo_since (h : Engine.Reach tok e) {S : List Nat} {e' : Engine α} (hs : Engine.StepsIn tok S e e')
    (hfresh : ∀ r ∈ e.revs, ∀ p g i d, r.edit = .edit p g i d → g ∉ S)
    (U : List Nat) (hU : ∀ g, g ∈ U ↔ g ∈ S ∨ g ∈ e.undoneGroups) :
    ∃ e'', e'.undo U = some e'' ∧ e''.text = e.text := by
  obtain ⟨l, hl⟩ := h.den
  have hUS : ∀ g ∈ S, U.contains g = true := by
    intro g hg; simpa using (hU g).2 (Or.inl hg)
  have key : ∃ l', Den e' l' ∧ visibleText U l' = visibleText U l := by
    induction hs with
    | refl => exact ⟨l, hl, rfl⟩
    | edit p g t d _ hg hd hok ih =>
      obtain ⟨l1, h1, h2⟩ := ih
      obtain ⟨pre, r, post, a1, a2, a3⟩ := h1.edit_inv hok
      obtain ⟨e1, l2, items, head', b1, b2, b3, _, _, b4, b5, b6, _⟩ := h1.edit_full a1 a2 p g hd a3
      rw [hok] at b1; cases b1
      exact ⟨l2, b2, by rw [b5.visibleText (hUS g hg), h2]⟩
    | undo groups _ hok ih =>
      obtain ⟨l1, h1, h2⟩ := ih
      obtain ⟨e1, b1, b2, _⟩ := h1.undo_full groups
      rw [hok] at b1; cases b1
      exact ⟨l1, b2, h2⟩
  obtain ⟨l', h1, h2⟩ := key
  obtain ⟨e'', b1, _, _, _, b2, _⟩ := h1.undo_full U
  refine ⟨e'', b1, ?_⟩
  rw [b2, h2, hl.text_visible]
  apply visibleText_congr_on hl.revsOk
  intro r hr g hg
  have hgS : g ∉ S := by
    unfold Revision.group? at hg
    split at hg
    · rename_i p g' i d he
      simp at hg; subst hg
      exact hfresh r hr p g' i d he
    · cases hg
  rw [Bool.eq_iff_iff, List.contains_iff_mem, List.contains_iff_mem, hU]
  simp [hgS]

example : exEngine.bind (fun e => (e.undo [1, 2]).bind fun e' => (e'.undo [2]).bind fun e2 =>
    (e2.undo [1]).map fun e3 => (e'.text, e2.text, e3.text)) =
    some ([1, 2, 3], [1, 2, 3, 4], [1, 5, 3]) := by decide +kernel

/-- **C24.** The text after a sequence of undo and redo requests depends only on
the set of groups in the last one. -/
theorem C24_order_independent (h : Engine.Reach tok e) (reqs reqs' : List (List Nat)) (S S' : List Nat)
    (hS : ∀ g, g ∈ S ↔ g ∈ S') :
    ∃ e1 e2, e.undoAll (reqs ++ [S]) = some e1 ∧ e.undoAll (reqs' ++ [S']) = some e2 ∧ e1.text = e2.text := by
  obtain ⟨l, hl⟩ := h.den
  have key : ∀ (reqs : List (List Nat)) (e : Engine α), Den e l → ∃ e1, e.undoAll reqs = some e1 ∧ Den e1 l := by
    intro reqs
    induction reqs with
    | nil => intro e h; exact ⟨e, rfl, h⟩
    | cons r reqs ih =>
      intro e h
      obtain ⟨e', b1, b2, _⟩ := h.undo_full r
      obtain ⟨e1, c1, c2⟩ := ih e' b2
      refine ⟨e1, ?_, c2⟩
      rw [Engine.undoAll] at c1 ⊢
      simp [b1, c1]
  have key2 : ∀ (reqs : List (List Nat)) S, ∃ e1, e.undoAll (reqs ++ [S]) = some e1 ∧ e1.text = visibleText S l := by
    intro reqs S
    obtain ⟨e1, a1, a2⟩ := key reqs e hl
    obtain ⟨e2, b1, b2, _, _, b3, _⟩ := a2.undo_full S
    refine ⟨e2, ?_, b3⟩
    rw [Engine.undoAll] at a1 ⊢
    simp [List.foldlM_append, a1, b1]
  obtain ⟨e1, a1, a2⟩ := key2 reqs S
  obtain ⟨e2, b1, b2⟩ := key2 reqs' S'
  refine ⟨e1, e2, a1, b1, ?_⟩
  rw [a2, b2]
  apply visibleText_congr
  intro g
  rw [Bool.eq_iff_iff, List.contains_iff_mem, List.contains_iff_mem, hS]

/-- **C24.** Undo followed by redo gives back the text. -/
theorem C24_redo_restores (h : Engine.Reach tok e) (reqs : List (List Nat)) :
    ∃ e', e.undoAll (reqs ++ [e.undoneGroups]) = some e' ∧ e'.text = e.text := by
  obtain ⟨l, hl⟩ := h.den
  obtain ⟨e1, e2, h1, h2, h3⟩ := C24_order_independent h reqs [] e.undoneGroups e.undoneGroups (fun _ => Iff.rfl)
  obtain ⟨e3, b1, _, _, _, b2, _⟩ := hl.undo_full e.undoneGroups
  refine ⟨e1, h1, ?_⟩
  have : e.undoAll ([] ++ [e.undoneGroups]) = some e3 := by simp [Engine.undoAll, b1]
  rw [this] at h2; cases h2
  rw [h3, b2, hl.text_visible]

/-! ### C25 -/

/-- Undone groups can always be collected. -/
theorem gcOk_undone (e : Engine α) (gcs : List Nat) (h : ∀ g ∈ gcs, g ∈ e.undoneGroups) : GcOk e gcs := by
  intro pre r post _ _ p g ins del _ hg hu
  have : g ∈ gcs := by simpa using hg
  have : e.undoneGroups.contains g = true := by simpa using h g this
  rw [this] at hu; cases hu

/-- Full property C25, last clause: collecting groups does not change the text
of revisions that remain available. -/
def GcKeepsRevisions (tok : RevId → Nat) : Prop :=
  ∀ (e e' : Engine Nat) gcs t x y, Engine.Reach tok e → GcOk e gcs → e.gc gcs = some e' →
    e.getRev tok t = some (some x) → e'.getRev tok t = some (some y) → x = y

/-- **C25, refuted clause.** Group 1 deletes the `2` of `1 2 3` and is undone and
collected: now the initial revision reads `1 3`. -/
theorem C25_revisions_not_kept : ¬ GcKeepsRevisions exTok := by
  intro hk
  let f : Option (Engine Nat) := do
    let e ← Engine.new exTok [1, 2, 3]
    let e ← e.editRev exTok 1 1 1 ⟨[.copy 0 1, .copy 2 3], 3⟩
    e.undo [1]
  have h : f.bind (fun e => (e.gc [1]).bind fun e' => (e.getRev exTok 1).bind fun x =>
      (e'.getRev exTok 1).map fun y => (e.undoneGroups, x, y)) = some ([1], some [1, 2, 3], some [1, 3]) := by
    decide +kernel
  simp only [Option.bind_eq_some_iff, Option.map_eq_some_iff] at h
  obtain ⟨e, he, e', h1, x, h2, y, h3, h4⟩ := h
  simp only [Prod.mk.injEq] at h4
  obtain ⟨h4, h5, h6⟩ := h4
  subst h5; subst h6
  have hr : Engine.Reach exTok e := by
    simp only [f, Option.bind_eq_bind, Option.bind_eq_some_iff] at he
    obtain ⟨e1, h1, e2, h2, h3⟩ := he
    exact (editRev_reach (new_reach _ _ h1) (by decide) h2).undo _ h3
  have := hk e e' [1] 1 [1, 2, 3] [1, 3] hr (gcOk_undone e [1] (by simp [h4])) h1 h2 h3
  cases this

/-- **C25 (partial).** Under the editor's condition, collecting groups changes
neither the current text nor the current revision's text, nor what undoing and
redoing the other groups does: undoing `S` after the collection is undoing the
groups of `S` that are not collected together with the collected groups that
were undone (`S'`) without it.  Missing: the text of older revisions, which is
refuted above. -/
theorem C25_gc_invisible_partial (h : Engine.Reach tok e) (gcs : List Nat) (hok : GcOk e gcs) :
    ∃ e1, e.gc gcs = some e1 ∧ e1.text = e.text ∧ e1.undoneGroups = e.undoneGroups ∧
      e1.getHeadRevId = e.getHeadRevId ∧
      (∀ id, e.getHeadRevId = some id → e1.getRev tok (tok id) = some (some e.text)) ∧
      ∀ S S', (∀ g, g ∉ gcs → (g ∈ S' ↔ g ∈ S)) → (∀ g ∈ gcs, (g ∈ S' ↔ g ∈ e.undoneGroups)) →
        (∀ r p g i d, e.revs.getLast? = some r → r.edit = .edit p g i d → g ∈ gcs → (g ∈ S ↔ g ∈ e.undoneGroups)) →
        ∃ e2 e3, e1.undo S = some e2 ∧ e.undo S' = some e3 ∧ e2.text = e3.text := by
  obtain ⟨l, hl⟩ := h.den
  obtain ⟨e1, retain, h1, h2, h3, h4, _, _, h6, h5, _⟩ := hl.gc gcs hok
  have hhead : e1.getHeadRevId = e.getHeadRevId := h6
  refine ⟨e1, h1, h3, h4, hhead, ?_, ?_⟩
  · intro id hid
    rw [← h3]
    exact h2.head_read tok (by rw [hhead]; exact hid)
  · intro S S' hS hgc hlast
    obtain ⟨e2, b1, _, _, _, b2, _⟩ := h2.undo_full S
    obtain ⟨e3, c1, _, _, _, c2, _⟩ := hl.undo_full S'
    refine ⟨e2, e3, b1, c1, ?_⟩
    rw [b2, c2]
    apply gcList_visibleText hl.revsOk
    · intro r hr g hg hgone
      simp only [goneLab, Bool.and_eq_true] at hgone
      have := hgc g (by simpa using hgone.2)
      rw [Bool.eq_iff_iff, List.contains_iff_mem, List.contains_iff_mem, this]
    · intro r hr g hg hgone
      rw [Bool.eq_iff_iff, List.contains_iff_mem, List.contains_iff_mem]
      by_cases hgg : g ∈ gcs
      · rw [hgc g hgg]
        -- the last revision
        obtain ⟨pre, last, k1, k2⟩ := hl.last
        have : r.revId = last.revId := by
          rw [h5, k2] at hgone
          have hg' : gcs.contains g = true := by simpa using hgg
          simpa [goneLab, hgg] using hgone
        have : r = last := nodup_ids_inj hl.revsOk.nodup hr (by rw [k1]; simp) this
        subst this
        unfold Revision.group? at hg
        split at hg
        · rename_i p g' i d he
          simp at hg; subst hg
          exact (hlast r p g' i d k2 he hgg).symm
        · cases hg
      · exact hS g hgg

example : exEngine.bind (fun e => (e.undo [1]).bind fun e => (e.gc [1]).bind fun e1 => (e1.undo [2]).bind fun e2 =>
    (e.undo [1, 2]).map fun e3 => (e.text, e1.text, e2.text, e3.text)) =
    some ([1, 5, 3], [1, 5, 3], [1, 2, 3], [1, 2, 3]) := by decide +kernel

/-! ### C26 -/

/-- **C26.** An edit against an unknown revision, or of the wrong length for its
base, is answered with an error; every other well-formed edit is accepted.  (An
error carries no new state: `mk_new_rev` works on `&self`, engine.rs:344, and
`try_edit_rev` changes the engine only after it has succeeded.) -/
theorem C26_bad_base_rejected [Nonempty α] (h : Engine.Reach tok e) (p g t : Nat) (d : Delta α) :
    (e.getRev tok t = some none → e.tryEditRev tok p g t d = some (.error (.missingRevision t))) ∧
    (∀ base, e.getRev tok t = some (some base) → d.WF → base.length ≠ d.baseLen →
      e.tryEditRev tok p g t d = some (.error (.malformedDelta base.length d.baseLen))) ∧
    (∀ base, e.getRev tok t = some (some base) → d.WF → base.length = d.baseLen →
      ∃ e', e.tryEditRev tok p g t d = some (.ok e')) := by
  obtain ⟨l, hl⟩ := h.den
  refine ⟨?_, ?_, ?_⟩
  · intro ht
    cases hf : e.findRevToken tok t with
    | none => exact Engine.edit_missing hf p g d
    | some ix =>
      obtain ⟨pre, r, post, h1, h2, _⟩ := Engine.findRevToken_some hf
      subst h2
      rw [hl.getRev h1 hf] at ht
      cases ht
  · intro base hb hd hlen
    obtain ⟨pre, r, post, a1, a2, a3, a4⟩ := hl.getRev_inv hb
    have : base.length = zeros (revMask e l post) := by
      rw [a4, keep_length _ _ (by simp [hl.revMask_length a1])]
    rw [this] at hlen ⊢
    exact hl.edit_malformed a1 a2 p g hd (fun hc => hlen hc.symm)
  · intro base hb hd hlen
    obtain ⟨e', _, _, b1, _⟩ := C22_stale_edit h hb p g d hd hlen.symm
    exact ⟨e', b1⟩

example : exEngine.bind (fun e => (e.tryEditRev exTok 1 1 77 ⟨[.copy 0 3], 3⟩).bind fun
    | .ok _ => none | .error err => some err) = some (.missingRevision 77) := by decide +kernel
example : exEngine.bind (fun e => (e.tryEditRev exTok 1 1 1 ⟨[.copy 0 2], 2⟩).bind fun
    | .ok _ => none | .error err => some err) = some (.malformedDelta 3 2) := by decide +kernel

/-! ### C30, engine part -/

/-- **C30 (engine part).** Revisions that the engine calls equivalent have the
same text. -/
theorem C30_equivalent_same_text (h : Engine.Reach tok e) {a b : RevId} {i j : Nat}
    (ha : e.findRev a = some i) (hb : e.findRev b = some j)
    (heq : e.isEquivalentRevision a b = some true) :
    e.revContentForIndex i = e.revContentForIndex j ∧ (e.revContentForIndex i).isSome := by
  obtain ⟨l, hl⟩ := h.den
  obtain ⟨pre, r, post, h1, h2, _⟩ := findLastIdx_some ha
  obtain ⟨pre', r', post', h1', h2', _⟩ := findLastIdx_some hb
  subst h2; subst h2'
  obtain ⟨S, a1, a2, _⟩ := hl.cur_union h1
  obtain ⟨S', b1, b2, _⟩ := hl.cur_union h1'
  rw [Engine.isEquivalentRevision, ha, hb] at heq
  simp [a1, b1] at heq
  subst heq
  rw [hl.rev_content h1, hl.rev_content h1', ← a2.2, ← b2.2]
  simp

/-- **C30 (engine part).** A revision the engine does not know is equivalent to
none, not even to itself; one it knows is equivalent to itself. -/
theorem C30_unknown_revision (h : Engine.Reach tok e) (a b : RevId) :
    ((e.findRev a).isNone = true ∨ (e.findRev b).isNone = true → e.isEquivalentRevision a b = some false) ∧
    ((e.findRev a).isSome = true → e.isEquivalentRevision a a = some true) := by
  obtain ⟨l, hl⟩ := h.den
  have key : ∀ c : RevId, (e.findRev c = none) ∨ ∃ i S, e.findRev c = some i ∧ e.deletesFromCurUnionForIndex i = some S := by
    intro c
    cases hc : e.findRev c with
    | none => exact .inl rfl
    | some i =>
      obtain ⟨pre, r, post, h1, h2, _⟩ := findLastIdx_some hc
      subst h2
      obtain ⟨S, a1, _⟩ := hl.cur_union h1
      exact .inr ⟨_, S, rfl, a1⟩
  rcases key a with ha | ⟨i, S, ha, hi⟩
  · rcases key b with hb | ⟨j, S', hb, hj⟩
    · simp [Engine.isEquivalentRevision, ha, hb]
    · simp [Engine.isEquivalentRevision, ha, hb, hj]
  · rcases key b with hb | ⟨j, S', hb, hj⟩
    · simp [Engine.isEquivalentRevision, ha, hb, hi]
    · simp [Engine.isEquivalentRevision, ha, hb, hi]

example : exEngine.bind (fun e => e.isEquivalentRevision ⟨7, 7, 7⟩ ⟨7, 7, 7⟩) = some false := by decide +kernel

end Xi
