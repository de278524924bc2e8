import Verif.Core.LineCacheUpdate

/-!
# C33, C34, C57: the front end's line cache

`LineCacheShadow.lines` reads a shadow as a list with one element for each line of the view:
`none`, or the line the front end has for it and which parts of that are valid.
`planLines` reads a plan as the list of the tactics of the lines.
-/

namespace Xi

/-! ## C33: the shadow -/

/-- C33: after an edit that replaces the lines from `start` to `stop` by `replace` lines, the
lines before and after are what they were, the new lines are invalid, and there are no
others. -/
theorem C33_edit (s : LineCacheShadow) {start stop replace : Nat} (h : start ≤ stop) (hs : stop ≤ s.lines.length) :
    (s.edit start stop replace).dirty = true ∧ (s.edit start stop replace).lines.length + (stop - start) = s.lines.length + replace ∧
    (∀ i, i < start → (s.edit start stop replace).lines[i]? = s.lines[i]?) ∧
    (∀ i, start ≤ i → i < start + replace → (s.edit start stop replace).lines[i]? = some none) ∧
    ∀ i, stop ≤ i → (s.edit start stop replace).lines[i - stop + (start + replace)]? = s.lines[i]? := by
  obtain ⟨_, h2, h3⟩ := s.edit_spec (replace := replace) h
  rw [h3]
  refine ⟨h2, by simp; omega, ?_, ?_, ?_⟩
  · intro i hi
    rw [List.append_assoc, List.getElem?_append_left (by simp; omega), List.getElem?_take, if_pos hi]
  · intro i h1 hi
    rw [List.append_assoc, List.getElem?_append_right (by simp; omega), List.getElem?_append_left (by simp; omega), List.getElem?_replicate,
      if_pos (by simp; omega)]
  · intro i hi
    rw [List.getElem?_append_right (by simp; omega), List.getElem?_drop]
    congr 1
    simp
    omega

/-- Non-vacuity of C33. -/
example : let s : LineCacheShadow := ⟨[⟨3, 0, .all⟩, ⟨2, 0, .invalid⟩, ⟨2, 5, .all⟩], false⟩
    (s.edit 1 4 1).lines = [some (0, .all), none, none, some (5, .all), some (6, .all)] ∧
      (s.edit 1 4 1).spans = [⟨1, 0, .all⟩, ⟨2, 0, .invalid⟩, ⟨2, 5, .all⟩] := by decide

/-- What an invalidation leaves of a line. -/
def Validity.afterLoss (invalid : Validity) (l : Option (Nat × Validity)) (l' : Option (Nat × Validity)) : Prop :=
  ∀ k v, l' = some (k, v) → ∃ v0, l = some (k, v0) ∧ (v.text = true ↔ v0.text = true ∧ invalid.text = false) ∧
    (v.styles = true ↔ v0.styles = true ∧ invalid.styles = false) ∧ (v.cursor = true ↔ v0.cursor = true ∧ invalid.cursor = false)

/-- C33: an invalidation of parts of the lines from `start` to `stop` leaves the other lines
as they were, and of these only the other parts of what was valid; a shadow that has lost
something is dirty. -/
theorem C33_invalidate (s : LineCacheShadow) {start stop : Nat} (invalid : Validity) (h : start ≤ stop) (hs : ∀ x ∈ s.spans, 0 < x.n) :
    (s.partialInvalidate start stop invalid).lines.length = s.lines.length ∧
    (∀ i, i < start ∨ stop ≤ i → (s.partialInvalidate start stop invalid).lines[i]? = s.lines[i]?) ∧
    (∀ (i : Nat) (l l' : Option (Nat × Validity)), start ≤ i → i < stop → s.lines[i]? = some l →
      (s.partialInvalidate start stop invalid).lines[i]? = some l' → invalid.afterLoss l l') ∧
    ((s.partialInvalidate start stop invalid).lines = s.lines ∨ (s.partialInvalidate start stop invalid).dirty = true) ∧
    (s.dirty = true → (s.partialInvalidate start stop invalid).dirty = true) := by
  obtain ⟨_, h2, h3⟩ := s.partialInvalidate_spec (invalid := invalid) h hs
  rw [h2]
  refine ⟨LineCacheShadow.invalidateFrom_length _ _, ?_, ?_, ?_, ?_⟩
  · intro i hi
    have hc : ¬ (start ≤ i ∧ i < stop) := by omega
    rw [LineCacheShadow.invalidateFrom_get, Nat.zero_add]
    simp [hc]
  · intro i l l' h4 h5 hl hl'
    rw [LineCacheShadow.invalidateFrom_get, hl, Nat.zero_add, Option.map_some, if_pos ⟨h4, h5⟩] at hl'
    intro k v hv
    simp only [Option.some.injEq] at hl'
    rw [hv] at hl'
    cases l with
    | none => simp [LineCacheShadow.invalidateLine] at hl'
    | some p =>
      obtain ⟨k0, v0⟩ := p
      simp only [LineCacheShadow.invalidateLine, entry] at hl'
      split at hl'
      · simp at hl'
      · simp only [Option.some.injEq, Prod.mk.injEq] at hl'
        obtain ⟨rfl, rfl⟩ := hl'
        exact ⟨v0, rfl, by simp [Validity.minus], by simp [Validity.minus], by simp [Validity.minus]⟩
  · rcases h3 with h3 | h3
    · rw [← h2, h3]
      exact .inl rfl
    · exact .inr h3
  · intro hd
    rcases h3 with h3 | h3
    · rw [h3]
      exact hd
    · exact h3

/-- Non-vacuity of C33. -/
example : let s : LineCacheShadow := ⟨[⟨3, 0, .all⟩, ⟨2, 0, .invalid⟩, ⟨2, 5, .all⟩], false⟩
    (s.partialInvalidate 2 6 ⟨false, false, true⟩).lines = [some (0, .all), some (1, .all), some (2, ⟨true, true, false⟩), none, none,
      some (5, ⟨true, true, false⟩), some (6, .all)] ∧ (s.partialInvalidate 3 5 .all) = s := by decide

/-! ## C34: the plan -/

/-- C34: a plan covers exactly the lines of the document; the lines of the window and two
lines around it are rendered; lines up to a thousand away are preserved; the others are
discarded.  No span is empty. -/
theorem C34_create (total firstLine height : Nat) : ∃ plan, RenderPlan.create total firstLine height = some plan ∧ (plan.map Prod.fst).sum = total ∧
    (0 < total → ∀ p ∈ plan, 0 < p.1) ∧
    ∀ i, i < total → (planLines plan)[i]? = some (
      if min firstLine total ≤ i + 2 ∧ i < min firstLine total + height + 2 then .render
      else if min firstLine total ≤ i + 1000 ∧ i < min firstLine total + height + 1000 then .preserve else .discard) := by
  obtain ⟨plan, h1, h2, h3, h4⟩ := RenderPlan.create_spec total firstLine height
  refine ⟨plan, h1, ?_, h3, h4⟩
  rw [← h2]
  clear h1 h2 h3 h4
  induction plan with
  | nil => rfl
  | cons p plan ih => rw [planLines_cons, List.length_append, ← ih]; simp

/-- Non-vacuity of C34. -/
example : RenderPlan.create 5000 2000 50 = some [(1000, .discard), (998, .preserve), (54, .render), (998, .preserve), (1950, .discard)] := by decide

/-- C34 (for requests with `start ≤ stop`): a request makes the lines from `start` to `stop` rendered, and changes no other
line; if they are lines of the document the total stays the same. -/
theorem C34_request_partial (plan : RenderPlan) {start stop : Nat} (h : start ≤ stop) : ∃ plan', plan.requestLines start stop = some plan' ∧
    (stop ≤ (planLines plan).length → (planLines plan').length = (planLines plan).length) ∧
    (∀ i, start ≤ i → i < stop → i < (planLines plan).length → (planLines plan')[i]? = some .render) ∧
    (∀ i, i < start ∨ stop ≤ i → i < (planLines plan).length → (planLines plan')[i]? = (planLines plan)[i]?) ∧
    ((∀ p ∈ plan, 0 < p.1) → start < stop → ∀ p ∈ plan', 0 < p.1) := by
  obtain ⟨plan', h1, h2, h3⟩ := plan.requestLines_spec h
  refine ⟨plan', h1, ?_, ?_, ?_, h3⟩
  · intro hl
    rw [h2]
    simp
    omega
  · intro i g1 g2 g3
    rw [h2, List.append_assoc, List.getElem?_append_right (by simp; omega), List.getElem?_append_left (by simp; omega), List.getElem?_replicate,
      if_pos (by simp; omega)]
  · intro i g1 g2
    rw [h2]
    rcases g1 with g1 | g1
    · rw [List.append_assoc, List.getElem?_append_left (by simp; omega), List.getElem?_take, if_pos g1]
    · rw [List.getElem?_append_right (by simp; omega), List.getElem?_drop]
      congr 1
      simp
      omega

/-- Non-vacuity of C34. -/
example : RenderPlan.requestLines [(1000, .discard), (998, .preserve), (54, .render), (998, .preserve), (1950, .discard)] 900 2500 =
    some [(900, .discard), (1600, .render), (550, .preserve), (1950, .discard)] := by decide

/-- C34 fails for a request with its ends the wrong way round, which a front end may send
(event_context.rs:173, 624-631 passes it on unchecked): the core crashes. -/
theorem C34_request_refuted : RenderPlan.requestLines [(3, .render)] 2 1 = none := by decide

/-! ## C57: what the front end shows -/

section

variable {T S : Type}

/-- A view: the shadow, the lines it should show, and the lines the front end has. -/
structure ViewState (T S : Type) where
  shadow : LineCacheShadow
  cur : List (ScreenLine T S)
  client : List (Option (ScreenLine T S))

/-- A line changed in nothing but the parts `invalid`. -/
def ChangedIn (invalid : Validity) (a b : ScreenLine T S) : Prop :=
  (invalid.text = false → a.text = b.text) ∧ (invalid.styles = false → a.styles = b.styles) ∧ (invalid.cursor = false → a.cursor = b.cursor)

/-- What happens to a view.  An edit replaces a range of lines (C55 says that the
range the core computes is right); an invalidation goes with a change of parts of some lines;
`set_dirty` with any change; an update is sent to the front end when it has to be rendered or
has requested lines. -/
inductive ViewStep (m : Missing) : ViewState T S → ViewState T S → Prop
  | edit (s : ViewState T S) (start stop : Nat) (new : List (ScreenLine T S)) (h : start ≤ stop) (hs : stop ≤ s.cur.length)
      (hn : 0 < s.cur.length + new.length - (stop - start)) :
      ViewStep m s ⟨s.shadow.edit start stop new.length, s.cur.take start ++ new ++ s.cur.drop stop, s.client⟩
  | invalidate (s : ViewState T S) (start stop : Nat) (invalid : Validity) (cur' : List (ScreenLine T S)) (h : start ≤ stop)
      (hl : cur'.length = s.cur.length)
      (hin : ∀ (i : Nat) (a b : ScreenLine T S), start ≤ i → i < stop → s.cur[i]? = some a → cur'[i]? = some b → ChangedIn invalid a b)
      (hout : ∀ i : Nat, i < start ∨ stop ≤ i → cur'[i]? = s.cur[i]?) :
      ViewStep m s ⟨s.shadow.partialInvalidate start stop invalid, cur', s.client⟩
  | setDirty (s : ViewState T S) (cur' : List (ScreenLine T S)) (h : 0 < cur'.length) : ViewStep m s ⟨.allDirty cur'.length, cur', s.client⟩
  | render (s : ViewState T S) (firstLine height : Nat) (shadow' : LineCacheShadow) (ops : List (UpdateOp T S))
      (client' : List (Option (ScreenLine T S))) (h : renderIfDirty s.cur s.shadow firstLine height = some (shadow', ops))
      (hc : applyUpdate m s.client ops 0 = some client') : ViewStep m s ⟨shadow', s.cur, client'⟩
  | request (s : ViewState T S) (firstLine height a b : Nat) (hab : a < b) (shadow' : LineCacheShadow) (ops : List (UpdateOp T S))
      (client' : List (Option (ScreenLine T S))) (h : viewRequestLines s.cur s.shadow firstLine height a b = some (shadow', ops))
      (hc : applyUpdate m s.client ops 0 = some client') : ViewStep m s ⟨shadow', s.cur, client'⟩

/-- The states of a view: it begins with a `set_dirty` (event_context.rs:507, tabs.rs:466) and
a front end without lines. -/
inductive ViewReachable (m : Missing) : ViewState T S → Prop
  | init (cur : List (ScreenLine T S)) (h : 0 < cur.length) : ViewReachable m ⟨.allDirty cur.length, cur, []⟩
  | step (s s' : ViewState T S) (h : ViewReachable m s) (hs : ViewStep m s s') : ViewReachable m s'

/-- The parts of a line the shadow says are valid. -/
def AgreeIn (v : Validity) (a b : ScreenLine T S) : Prop :=
  (v.text = true → a.text = b.text) ∧ (v.styles = true → a.styles = b.styles) ∧ (v.cursor = true → a.cursor = b.cursor)

/-- What the shadow is worth: the valid parts of the lines are what the front end has; a clean
shadow knows all the front end's lines. -/
structure ViewState.Good (s : ViewState T S) : Prop where
  pos : 0 < s.cur.length
  len : s.shadow.lines.length = s.cur.length
  noEmpty : NoEmpty s.shadow.spans
  asc : Ascending 0 s.shadow.lines
  agree : ∀ (i k : Nat) (v : Validity), s.shadow.lines[i]? = some (some (k, v)) →
    ∃ L c, s.client[k]? = some (some L) ∧ s.cur[i]? = some c ∧ AgreeIn v L c
  clean : s.shadow.dirty = false → s.client.length = s.cur.length ∧
    (∀ (i k : Nat) (v : Validity), s.shadow.lines[i]? = some (some (k, v)) → k = i) ∧
    ∀ (i : Nat) (L : ScreenLine T S), s.client[i]? = some (some L) → ∃ v, s.shadow.lines[i]? = some (some (i, v)) ∧ v.text = true ∧ v.styles = true

/-! ### Lines in order -/

/-- The front end's lines in the shadow. -/
def keys (l : List (Option (Nat × Validity))) : List Nat := l.filterMap (·.map Prod.fst)

theorem ascending_iff : ∀ (l : List (Option (Nat × Validity))) (ln : Nat), Ascending ln l ↔ (keys l).Pairwise (· < ·) ∧ ∀ k ∈ keys l, ln ≤ k
  | [], ln => by simp [Ascending, keys]
  | none :: l, ln => by
    rw [Ascending, ascending_iff l ln]
    simp [keys]
  | some (k, v) :: l, ln => by
    have e : keys (some (k, v) :: l) = k :: keys l := by simp [keys]
    rw [Ascending, ascending_iff l (k + 1), e, List.pairwise_cons]
    constructor
    · rintro ⟨h1, h2, h3⟩
      refine ⟨⟨fun x hx => h3 x hx, h2⟩, ?_⟩
      intro x hx
      rcases List.mem_cons.1 hx with rfl | hx
      · exact h1
      · have := h3 x hx
        omega
    · rintro ⟨⟨h1, h2⟩, h3⟩
      exact ⟨h3 k (by simp), h2, fun x hx => h1 x hx⟩

theorem Ascending.of_sublist {l l' : List (Option (Nat × Validity))} (h : (keys l').Sublist (keys l)) {ln : Nat} (ha : Ascending ln l) : Ascending ln l' := by
  rw [ascending_iff] at ha ⊢
  exact ⟨ha.1.sublist h, fun k hk => ha.2 k (h.subset hk)⟩

theorem keys_append (a b : List (Option (Nat × Validity))) : keys (a ++ b) = keys a ++ keys b := by simp [keys]

theorem keys_none (n : Nat) : keys (List.replicate n none) = [] := by
  induction n with
  | zero => rfl
  | succ n ih => simp [keys, List.replicate_succ]

theorem keys_edit (l : List (Option (Nat × Validity))) {start stop n : Nat} (h : start ≤ stop) :
    (keys (l.take start ++ List.replicate n none ++ l.drop stop)).Sublist (keys l) := by
  rw [keys_append, keys_append, keys_none, List.append_nil]
  have : keys l = keys (l.take start) ++ keys (l.drop start) := by rw [← keys_append, List.take_append_drop]
  rw [this]
  refine List.Sublist.append (List.Sublist.refl _) ?_
  rw [show stop = start + (stop - start) by omega, ← List.drop_drop]
  exact (List.drop_sublist _ _).filterMap _

theorem keys_invalidate (start stop : Nat) (invalid : Validity) : ∀ (l : List (Option (Nat × Validity))) (o : Nat),
    (keys (LineCacheShadow.invalidateFrom start stop invalid o l)).Sublist (keys l)
  | [], _ => by simp [LineCacheShadow.invalidateFrom]
  | none :: l, o => by
    have ih := keys_invalidate start stop invalid l (o + 1)
    simp only [LineCacheShadow.invalidateFrom, LineCacheShadow.invalidateLine, ite_self]
    simpa [keys] using ih
  | some (k, v) :: l, o => by
    have ih := keys_invalidate start stop invalid l (o + 1)
    have e : keys (some (k, v) :: l) = k :: keys l := by simp [keys]
    rw [e]
    simp only [LineCacheShadow.invalidateFrom]
    split
    · simp only [LineCacheShadow.invalidateLine, entry]
      split
      · have : keys (none :: LineCacheShadow.invalidateFrom start stop invalid (o + 1) l) = keys (LineCacheShadow.invalidateFrom start stop invalid (o + 1) l) := by
          simp [keys]
        rw [this]
        exact ih.cons _
      · have : keys (some (k, v.minus invalid) :: LineCacheShadow.invalidateFrom start stop invalid (o + 1) l) =
            k :: keys (LineCacheShadow.invalidateFrom start stop invalid (o + 1) l) := by simp [keys]
        rw [this]
        exact ih.cons_cons _
    · have : keys (some (k, v) :: LineCacheShadow.invalidateFrom start stop invalid (o + 1) l) =
          k :: keys (LineCacheShadow.invalidateFrom start stop invalid (o + 1) l) := by simp [keys]
      rw [this]
      exact ih.cons_cons _

theorem ascending_of_index : ∀ (l : List (Option (Nat × Validity))) (o : Nat), (∀ (i k : Nat) (v : Validity), l[i]? = some (some (k, v)) → k = o + i) →
    Ascending o l
  | [], _, _ => trivial
  | none :: l, o, h => by
    refine Ascending.mono (b := o + 1) (by omega) (ascending_of_index l (o + 1) fun i k v hi => ?_)
    have := h (i + 1) k v (by simpa using hi)
    omega
  | some (k, v) :: l, o, h => by
    have := h 0 k v (by simp)
    refine ⟨by omega, Ascending.mono (b := o + 1) (by omega) (ascending_of_index l (o + 1) fun i k' v' hi => ?_)⟩
    have := h (i + 1) k' v' (by simpa using hi)
    omega

/-! ### The steps -/

theorem allDirty_lines (n : Nat) : (LineCacheShadow.allDirty n).lines = List.replicate n none ∧ NoEmpty (LineCacheShadow.allDirty n).spans := by
  constructor
  · show shadowLines (addSpan [] n 0 .invalid) = _
    rw [addSpan_lines, spanLines_invalid]
    rfl
  · exact addSpan_noEmpty (by simp [NoEmpty]) _ _ _

theorem good_allDirty {cur : List (ScreenLine T S)} (h : 0 < cur.length) (client : List (Option (ScreenLine T S))) :
    ViewState.Good ⟨.allDirty cur.length, cur, client⟩ := by
  obtain ⟨h1, h2⟩ := allDirty_lines cur.length
  refine ⟨h, by simp [h1], h2, ?_, ?_, ?_⟩
  · show Ascending 0 (LineCacheShadow.allDirty cur.length).lines
    rw [h1, ascending_iff, keys_none]
    simp
  · intro i k v hi
    simp only [h1, List.getElem?_replicate] at hi
    split at hi <;> simp at hi
  · intro hd
    simp [LineCacheShadow.allDirty] at hd

theorem good_edit {s : ViewState T S} (hg : s.Good) {start stop : Nat} (new : List (ScreenLine T S)) (h : start ≤ stop) (hs : stop ≤ s.cur.length)
    (hn : 0 < s.cur.length + new.length - (stop - start)) :
    ViewState.Good ⟨s.shadow.edit start stop new.length, s.cur.take start ++ new ++ s.cur.drop stop, s.client⟩ := by
  obtain ⟨h1, h2, h3⟩ := s.shadow.edit_spec (replace := new.length) h
  have hlen := hg.len
  refine ⟨by simp; omega, by simp [h3]; omega, h1, ?_, ?_, ?_⟩
  · show Ascending 0 (s.shadow.edit start stop new.length).lines
    rw [h3]
    exact hg.asc.of_sublist (keys_edit _ h)
  · intro i k v hi
    simp only [h3] at hi
    by_cases c1 : i < start
    · rw [List.append_assoc, List.getElem?_append_left (by simp; omega), List.getElem?_take, if_pos c1] at hi
      obtain ⟨L, c, a1, a2, a3⟩ := hg.agree i k v hi
      refine ⟨L, c, a1, ?_, a3⟩
      show (s.cur.take start ++ new ++ s.cur.drop stop)[i]? = _
      rw [List.append_assoc, List.getElem?_append_left (by simp; omega), List.getElem?_take, if_pos c1]
      exact a2
    · by_cases c2 : i < start + new.length
      · rw [List.append_assoc, List.getElem?_append_right (by simp; omega), List.getElem?_append_left (by simp; omega), List.getElem?_replicate] at hi
        split at hi <;> simp at hi
      · have e1 : i - ((s.shadow.lines.take start ++ List.replicate new.length none).length) = i - (start + new.length) := by simp; omega
        have e2 : i - ((s.cur.take start ++ new).length) = i - (start + new.length) := by simp; omega
        rw [List.getElem?_append_right (by simp; omega), List.getElem?_drop, e1] at hi
        obtain ⟨L, c, a1, a2, a3⟩ := hg.agree _ k v hi
        refine ⟨L, c, a1, ?_, a3⟩
        show (s.cur.take start ++ new ++ s.cur.drop stop)[i]? = _
        rw [List.getElem?_append_right (by simp; omega), List.getElem?_drop, e2]
        exact a2
  · intro hd
    simp [h2] at hd

theorem good_invalidate {s : ViewState T S} (hg : s.Good) {start stop : Nat} (invalid : Validity) (cur' : List (ScreenLine T S)) (h : start ≤ stop)
    (hl : cur'.length = s.cur.length)
    (hin : ∀ (i : Nat) (a b : ScreenLine T S), start ≤ i → i < stop → s.cur[i]? = some a → cur'[i]? = some b → ChangedIn invalid a b)
    (hout : ∀ i : Nat, i < start ∨ stop ≤ i → cur'[i]? = s.cur[i]?) : ViewState.Good ⟨s.shadow.partialInvalidate start stop invalid, cur', s.client⟩ := by
  obtain ⟨h1, h2, h3⟩ := s.shadow.partialInvalidate_spec (invalid := invalid) h hg.noEmpty
  have hlen := hg.len
  refine ⟨by have := hg.pos; simp only; omega, by simp [h2, LineCacheShadow.invalidateFrom_length, hlen, hl], h1, ?_, ?_, ?_⟩
  · show Ascending 0 (s.shadow.partialInvalidate start stop invalid).lines
    rw [h2]
    exact hg.asc.of_sublist (keys_invalidate _ _ _ _ _)
  · intro i k v hi
    simp only [h2, LineCacheShadow.invalidateFrom_get, Nat.zero_add, Option.map_eq_some_iff] at hi
    obtain ⟨l, hi, hl'⟩ := hi
    by_cases c : start ≤ i ∧ i < stop
    · rw [if_pos c] at hl'
      cases l with
      | none => simp [LineCacheShadow.invalidateLine] at hl'
      | some p =>
        obtain ⟨k0, v0⟩ := p
        simp only [LineCacheShadow.invalidateLine, entry] at hl'
        split at hl'
        · simp at hl'
        · simp only [Option.some.injEq, Prod.mk.injEq] at hl'
          obtain ⟨rfl, rfl⟩ := hl'
          obtain ⟨L, x, a1, a2, a3, a4, a5⟩ := hg.agree i k0 v0 hi
          have hx := (List.getElem?_eq_some_iff.1 a2).1
          have hi' : cur'[i]? = some (cur'[i]'(by omega)) := List.getElem?_eq_getElem (by omega)
          obtain ⟨b1, b2, b3⟩ := hin i _ _ c.1 c.2 a2 hi'
          refine ⟨L, _, a1, hi', ?_, ?_, ?_⟩
          · intro hv
            simp [Validity.minus] at hv
            rw [a3 hv.1, b1 hv.2]
          · intro hv
            simp [Validity.minus] at hv
            rw [a4 hv.1, b2 hv.2]
          · intro hv
            simp [Validity.minus] at hv
            rw [a5 hv.1, b3 hv.2]
    · rw [if_neg c] at hl'
      rw [hl'] at hi
      obtain ⟨L, x, a1, a2, a3⟩ := hg.agree i k v hi
      exact ⟨L, x, a1, by show cur'[i]? = _; rw [hout i (by omega), a2], a3⟩
  · intro hd
    rcases h3 with h3 | h3
    · simp only [h3] at hd ⊢
      obtain ⟨g1, g2⟩ := hg.clean hd
      exact ⟨by rw [g1, hl], g2⟩
    · simp only at hd
      rw [h3] at hd
      cases hd

/-- What an update gives. -/
structure Shown (m : Missing) (cur : List (ScreenLine T S)) (client' : List (Option (ScreenLine T S))) (render : Nat → Prop) : Prop where
  /-- The front end has the right number of lines. -/
  len : client'.length = cur.length
  /-- The lines to render have the right text and styles, and the right cursors except
  perhaps if they should have none. -/
  window : ∀ (i : Nat) (c : ScreenLine T S), render i → cur[i]? = some c →
    ∃ L, client'[i]? = some (some L) ∧ L.text = c.text ∧ L.styles = c.styles ∧ (m = .clear ∨ c.cursor ≠ [] → L = c)
  /-- Every line the front end has not been told to be invalid has the right text and styles. -/
  valid : ∀ (i : Nat) (L : ScreenLine T S), client'[i]? = some (some L) → ∃ c, cur[i]? = some c ∧ L.text = c.text ∧ L.styles = c.styles

theorem AgreeIn.eq {L c : ScreenLine T S} (h : AgreeIn .all L c) : L = c := by
  obtain ⟨h1, h2, h3⟩ := h
  cases L
  cases c
  simp_all [Validity.all]

theorem good_sendUpdate {m : Missing} {s : ViewState T S} (hg : s.Good) {plan : RenderPlan} (hp : s.cur.length ≤ (planLines plan).length)
    (hpos : ∀ p ∈ plan, 0 < p.1) : ∃ shadow' ops client', sendUpdate s.cur s.shadow plan = some (shadow', ops) ∧
      applyUpdate m s.client ops 0 = some client' ∧ ViewState.Good ⟨shadow', s.cur, client'⟩ ∧ (∀ op ∈ ops, 0 < op.count) ∧
      Shown m s.cur client' (fun i => (planLines plan)[i]? = some .render) := by
  obtain ⟨segs, q1, q2, q3, q4⟩ := segments_spec s.shadow plan
  have q4 := q4 hg.noEmpty hpos
  have hlen := hg.len
  have hE : (segLines segs).length = s.cur.length := by rw [q3, List.length_zip]; omega
  have hfst : (segLines segs).map Prod.fst = s.shadow.lines := by
    rw [q3, List.map_fst_zip (by omega)]
  have hgetE : ∀ i, i < s.cur.length → ∃ e t, s.shadow.lines[i]? = some e ∧ (planLines plan)[i]? = some t ∧ (segLines segs)[i]? = some (e, t) := by
    intro i hi
    refine ⟨_, _, List.getElem?_eq_getElem (by omega), List.getElem?_eq_getElem (by omega), ?_⟩
    rw [q3, List.getElem?_zip_eq_some]
    exact ⟨List.getElem?_eq_getElem (by omega), List.getElem?_eq_getElem (by omega)⟩
  unfold sendUpdate LineCacheShadow.needsRender
  by_cases hr : s.shadow.dirty = true ∨ (segs.any fun seg => seg.tactic = .render && seg.validity ≠ .all) = true
  · obtain ⟨b', ops', e1, e2, e3, e4, e5⟩ := updateLoop_spec m s.cur s.client segs 0 [] [] 0 q2 (by rw [hfst]; exact hg.asc)
      (by
        rw [hfst]
        intro k v hk
        obtain ⟨i, hi⟩ := List.getElem?_of_mem hk
        obtain ⟨L, c, a1, _⟩ := hg.agree i k v hi
        exact (List.getElem?_eq_some_iff.1 a1).1)
      (by omega) (by simp [NoEmpty]) q4
    have hsend : (do
        if ← (if s.shadow.dirty then some true else do return (← s.shadow.segments plan).any fun seg => seg.tactic = .render && seg.validity ≠ .all) then
          let (b, ops) ← updateLoop s.cur (← s.shadow.segments plan) [] [] 0
          return (⟨b, false⟩, ops)
        else return (s.shadow, [.copy s.cur.length]) : Option (LineCacheShadow × List (UpdateOp T S))) = some (⟨b', false⟩, ops') := by
      rw [q1]
      by_cases hd : s.shadow.dirty = true
      · simp [hd, e1]
      · have := hr.resolve_left hd
        simp only [hd, Bool.false_eq_true, if_false, Option.pure_def, Option.bind_eq_bind, Option.bind_some, this, if_true, e1, List.nil_append]
    have hshadow : ∀ i, i < s.cur.length → ∃ e t, s.shadow.lines[i]? = some e ∧ (planLines plan)[i]? = some t ∧
        (shadowLines b')[i]? = some (newEntry i (e, t)) ∧
        ((segLines segs).mapIdx fun i x => newLine m s.cur s.client (0 + i) x)[i]? = some (newLine m s.cur s.client i (e, t)) := by
      intro i hi
      obtain ⟨e, t, h1, h2, h3⟩ := hgetE i hi
      refine ⟨e, t, h1, h2, ?_, ?_⟩
      · rw [e3, shadowLines_nil, List.nil_append, List.getElem?_mapIdx, h3]
        simp
      · rw [List.getElem?_mapIdx, h3]
        simp
    -- what the front end has of a line whose text is valid
    have hkept : ∀ (i : Nat) (k : Nat) (v : Validity), s.shadow.lines[i]? = some (some (k, v)) → (v.text && v.styles) = true →
        ∃ L c, keptLine m s.cur s.client i (k, v) = some L ∧ s.cur[i]? = some c ∧ L.text = c.text ∧ L.styles = c.styles ∧ (v.cursor = true → L = c) ∧
          (m = .clear ∨ c.cursor ≠ [] → L = c) := by
      intro i k v hi hv
      obtain ⟨L, c, a1, a2, a3, a4, a5⟩ := hg.agree i k v hi
      simp only [Bool.and_eq_true] at hv
      unfold keptLine
      dsimp only
      split
      · rename_i hc
        have : L = c := AgreeIn.eq ⟨fun _ => a3 hv.1, fun _ => a4 hv.2, fun _ => a5 hc⟩
        exact ⟨L, c, by rw [a1]; rfl, a2, a3 hv.1, a4 hv.2, fun _ => this, fun _ => this⟩
      · rename_i hc
        refine ⟨{ L with cursor := m.cursor L.cursor (sentCursor s.cur i) }, c, by rw [a1]; rfl, a2, a3 hv.1, a4 hv.2, fun h => absurd h hc, ?_⟩
        intro hm
        have h1 := a3 hv.1
        have h2 := a4 hv.2
        have h3 : m.cursor L.cursor (sentCursor s.cur i) = c.cursor := by
          rw [sentCursor, a2]
          show m.cursor L.cursor (encodeCursor c.cursor) = _
          unfold encodeCursor
          cases hcc : c.cursor with
          | nil =>
            rw [hcc] at hm
            rcases hm with rfl | hm
            · rfl
            · exact absurd rfl hm
          | cons x xs => cases m <;> rfl
        cases c
        simp_all
    refine ⟨⟨b', false⟩, ops', _, hsend, e4, ?_, e5, ?_⟩
    · refine ⟨hg.pos, ?_, e2, ?_, ?_, ?_⟩
      · show (shadowLines b').length = _
        rw [e3]
        simp [hE]
      · show Ascending 0 (shadowLines b')
        refine ascending_of_index _ _ fun i k v hi => ?_
        rw [e3, shadowLines_nil, List.nil_append, List.getElem?_mapIdx, Option.map_eq_some_iff] at hi
        obtain ⟨x, hx, hi⟩ := hi
        unfold newEntry at hi
        split at hi
        · simp at hi
        · split at hi
          · rw [Option.map_eq_some_iff] at hi
            obtain ⟨p, _, hi⟩ := hi
            simp at hi
            omega
          · split at hi
            · simp at hi
            · simp at hi
              omega
      · intro i k v hi
        have hi : (shadowLines b')[i]? = some (some (k, v)) := hi
        have hil : i < s.cur.length := by
          have := (List.getElem?_eq_some_iff.1 hi).1
          rw [e3] at this
          simpa [hE] using this
        obtain ⟨e, t, h1, h2, h3, h4⟩ := hshadow i hil
        rw [h3] at hi
        simp only [Option.some.injEq] at hi
        have hk : k = i := by
          unfold newEntry at hi
          split at hi
          · simp at hi
          · split at hi
            · rw [Option.map_eq_some_iff] at hi
              obtain ⟨p, _, hi⟩ := hi
              simp at hi
              exact hi.1.symm
            · split at hi
              · simp at hi
              · simp at hi
                exact hi.1.symm
        subst hk
        simp only [h4]
        unfold newEntry at hi
        unfold newLine
        split at hi
        · simp at hi
        · rename_i hd
          rw [if_neg hd]
          split at hi
          · rename_i ht
            rw [if_pos ht]
            cases e with
            | none => simp at hi
            | some p =>
              obtain ⟨k0, v0⟩ := p
              simp at hi
              subst hi
              obtain ⟨L, c, b1, b2, b3, b4, b5, _⟩ := hkept k k0 v0 h1 ht
              exact ⟨L, c, by rw [← b1]; rfl, b2, fun _ => b3, fun _ => b4, fun hc => by rw [b5 hc]⟩
          · rename_i ht
            rw [if_neg ht]
            split at hi
            · simp at hi
            · rename_i hpz
              rw [if_neg hpz]
              refine ⟨s.cur[k], s.cur[k], by rw [List.getElem?_eq_getElem hil], List.getElem?_eq_getElem hil, fun _ => rfl, fun _ => rfl, fun _ => rfl⟩
      · intro _
        refine ⟨by simp [hE], ?_, ?_⟩
        · intro i k v hi
          have hi : (shadowLines b')[i]? = some (some (k, v)) := hi
          rw [e3, shadowLines_nil, List.nil_append, List.getElem?_mapIdx, Option.map_eq_some_iff] at hi
          obtain ⟨x, hx, hi⟩ := hi
          unfold newEntry at hi
          split at hi
          · simp at hi
          · split at hi
            · rw [Option.map_eq_some_iff] at hi
              obtain ⟨p, _, hi⟩ := hi
              simp at hi
              omega
            · split at hi
              · simp at hi
              · simp at hi
                omega
        · intro i L hi
          have hil : i < s.cur.length := by
            have := (List.getElem?_eq_some_iff.1 hi).1
            simpa [hE] using this
          obtain ⟨e, t, h1, h2, h3, h4⟩ := hshadow i hil
          show ∃ v, (shadowLines b')[i]? = _ ∧ _
          simp only [h4, Option.some.injEq] at hi
          rw [h3]
          unfold newLine at hi
          unfold newEntry
          split at hi
          · simp at hi
          · rename_i hd
            rw [if_neg hd]
            split at hi
            · rename_i ht
              rw [if_pos ht]
              cases e with
              | none => simp at hi
              | some p =>
                obtain ⟨k0, v0⟩ := p
                simp only [hasText, Bool.and_eq_true] at ht
                exact ⟨v0, rfl, ht.1, ht.2⟩
            · rename_i ht
              rw [if_neg ht]
              split at hi
              · simp at hi
              · rename_i hpz
                rw [if_neg hpz]
                exact ⟨.all, rfl, rfl, rfl⟩
    · refine ⟨by simp [hE], ?_, ?_⟩
      · intro i c hi hc
        have hil := (List.getElem?_eq_some_iff.1 hc).1
        obtain ⟨e, t, h1, h2, h3, h4⟩ := hshadow i hil
        rw [h4]
        have ht : t = .render := by
          rw [h2] at hi
          exact Option.some.inj hi
        subst ht
        unfold newLine
        rw [if_neg (by simp)]
        split
        · rename_i ht
          cases e with
          | none => simp [hasText] at ht
          | some p =>
            obtain ⟨k0, v0⟩ := p
            obtain ⟨L, c', b1, b2, b3, b4, b5, b6⟩ := hkept i k0 v0 h1 ht
            rw [hc] at b2
            cases b2
            exact ⟨L, by rw [← b1]; rfl, b3, b4, b6⟩
        · rw [if_neg (by simp)]
          exact ⟨c, by rw [hc], rfl, rfl, fun _ => rfl⟩
      · intro i L hi
        have hil : i < s.cur.length := by
          have := (List.getElem?_eq_some_iff.1 hi).1
          simpa [hE] using this
        obtain ⟨e, t, h1, h2, h3, h4⟩ := hshadow i hil
        simp only [h4, Option.some.injEq] at hi
        unfold newLine at hi
        split at hi
        · simp at hi
        · split at hi
          · rename_i ht
            cases e with
            | none => simp at hi
            | some p =>
              obtain ⟨k0, v0⟩ := p
              obtain ⟨L', c', b1, b2, b3, b4, _⟩ := hkept i k0 v0 h1 ht
              have : L' = L := by
                have hi : keptLine m s.cur s.client i (k0, v0) = some L := hi
                rw [b1] at hi
                exact Option.some.inj hi
              subst this
              exact ⟨c', b2, b3, b4⟩
          · split at hi
            · simp at hi
            · exact ⟨L, hi, rfl, rfl⟩
  · have hd : s.shadow.dirty = false := by
      cases h : s.shadow.dirty
      · rfl
      · exact absurd (.inl h) hr
    have hany : (segs.any fun seg => seg.tactic = .render && seg.validity ≠ .all) = false := by
      cases h : segs.any fun seg => seg.tactic = .render && seg.validity ≠ .all
      · rfl
      · exact absurd (.inr h) hr
    obtain ⟨g1, g2, g3⟩ := hg.clean hd
    refine ⟨s.shadow, [.copy s.cur.length], s.client, ?_, ?_, hg, ?_, g1, ?_, ?_⟩
    · simp only [hd, q1, Bool.false_eq_true, if_false, Option.pure_def, Option.bind_eq_bind, Option.bind_some, hany]
    · simp [applyUpdate, ← g1]
    · intro op hop
      rw [List.mem_singleton.1 hop]
      exact hg.pos
    · intro i c hi hc
      have hil := (List.getElem?_eq_some_iff.1 hc).1
      obtain ⟨e, t, h1, h2, h3⟩ := hgetE i hil
      have ht : t = .render := by
        rw [h2] at hi
        exact Option.some.inj hi
      subst ht
      have hmem := List.mem_of_getElem? h3
      unfold segLines at hmem
      rw [List.mem_flatMap] at hmem
      obtain ⟨g, hg', hm⟩ := hmem
      rw [List.mem_map] at hm
      obtain ⟨e', he', hm⟩ := hm
      simp only [Prod.mk.injEq] at hm
      obtain ⟨rfl, hgt⟩ := hm
      have hall : g.validity = .all := by
        have := List.any_eq_false.1 hany g hg'
        simpa [hgt] using this
      rw [hall] at he'
      obtain ⟨j, hj⟩ := List.getElem?_of_mem he'
      have hjn : j < g.n := by simpa using (List.getElem?_eq_some_iff.1 hj).1
      rw [spanLines_get hjn] at hj
      have he2 : e' = some (g.theirs + j, .all) := by
        rw [← Option.some.inj hj]
        rfl
      rw [he2] at h1
      obtain ⟨L, c', b1, b2, b3⟩ := hg.agree i _ _ h1
      have hk := g2 i _ _ h1
      rw [hk] at b1
      rw [hc] at b2
      cases b2
      have := b3.eq
      exact ⟨L, b1, by rw [this], by rw [this], fun _ => this⟩
    · intro i L hi
      obtain ⟨v, h1, h2, h3⟩ := g3 i L hi
      obtain ⟨L', c, b1, b2, b3, b4, b5⟩ := hg.agree i i v h1
      rw [hi] at b1
      cases b1
      exact ⟨c, b2, b3 h2, b4 h3⟩

theorem good_step {m : Missing} {s s' : ViewState T S} (hg : s.Good) (h : ViewStep m s s') : s'.Good := by
  cases h with
  | edit start stop new h hs hn => exact good_edit hg new h hs hn
  | invalidate start stop invalid cur' h hl hin hout => exact good_invalidate hg invalid cur' h hl hin hout
  | setDirty cur' h => exact good_allDirty h _
  | render firstLine height shadow' ops client' h hc =>
    obtain ⟨plan, p1, p2, p3, p4⟩ := RenderPlan.create_spec s.cur.length firstLine height
    obtain ⟨sh, o, c, q1, q2, q3, _⟩ := good_sendUpdate (m := m) hg (by omega) (p3 hg.pos)
    unfold renderIfDirty at h
    rw [p1] at h
    simp only [Option.bind_eq_bind, Option.bind_some] at h
    rw [q1] at h
    cases h
    rw [q2] at hc
    cases hc
    exact q3
  | request firstLine height a b hab shadow' ops client' h hc =>
    obtain ⟨plan, p1, p2, p3, p4⟩ := RenderPlan.create_spec s.cur.length firstLine height
    obtain ⟨plan', r1, r2, r3⟩ := plan.requestLines_spec (Nat.le_of_lt hab)
    obtain ⟨sh, o, c, q1, q2, q3, _⟩ := good_sendUpdate (m := m) (plan := plan') hg (by rw [r2]; simp; omega) (r3 (p3 hg.pos) hab)
    unfold viewRequestLines at h
    rw [p1] at h
    simp only [Option.bind_eq_bind, Option.bind_some] at h
    rw [r1] at h
    simp only [Option.bind_some] at h
    rw [q1] at h
    cases h
    rw [q2] at hc
    cases hc
    exact q3

theorem good_reachable {m : Missing} {s : ViewState T S} (h : ViewReachable m s) : s.Good := by
  induction h with
  | init cur h => exact good_allDirty h _
  | step s s' _ hs ih => exact good_step ih hs

/-- C57: whatever has happened to a view, rendering it does not crash and sends an update
that the front end can apply, with no empty operation; after it the front end has the right
number of lines; the lines of the window and two lines around it are what they should be; and
every line the front end may show has the right text and styles.  For the cursors of the lines
of the window this needs a front end that takes a missing cursor for no cursor; otherwise
lines that have cursors are right. -/
theorem C57_render_partial {m : Missing} {s : ViewState T S} (h : ViewReachable m s) (firstLine height : Nat) :
    ∃ shadow' ops client', renderIfDirty s.cur s.shadow firstLine height = some (shadow', ops) ∧ applyUpdate m s.client ops 0 = some client' ∧
      (∀ op ∈ ops, 0 < op.count) ∧
      Shown m s.cur client' (fun i => min firstLine s.cur.length ≤ i + 2 ∧ i < min firstLine s.cur.length + height + 2) := by
  have hg := good_reachable h
  obtain ⟨plan, p1, p2, p3, p4⟩ := RenderPlan.create_spec s.cur.length firstLine height
  obtain ⟨sh, o, c, q1, q2, q3, q4, q5⟩ := good_sendUpdate (m := m) hg (by omega) (p3 hg.pos)
  refine ⟨sh, o, c, ?_, q2, q4, q5.len, ?_, q5.valid⟩
  · unfold renderIfDirty
    rw [p1]
    exact q1
  · intro i c hi hc
    refine q5.window i c ?_ hc
    show (planLines plan)[i]? = some .render
    rw [p4 i (List.getElem?_eq_some_iff.1 hc).1, if_pos hi]

/-- C57: the same for the lines the front end requests. -/
theorem C57_request_partial {m : Missing} {s : ViewState T S} (h : ViewReachable m s) (firstLine height : Nat) {a b : Nat} (hab : a < b) :
    ∃ shadow' ops client', viewRequestLines s.cur s.shadow firstLine height a b = some (shadow', ops) ∧ applyUpdate m s.client ops 0 = some client' ∧
      (∀ op ∈ ops, 0 < op.count) ∧ Shown m s.cur client' (fun i => a ≤ i ∧ i < b) := by
  have hg := good_reachable h
  obtain ⟨plan, p1, p2, p3, p4⟩ := RenderPlan.create_spec s.cur.length firstLine height
  obtain ⟨plan', r1, r2, r3⟩ := plan.requestLines_spec (Nat.le_of_lt hab)
  obtain ⟨sh, o, c, q1, q2, q3, q4, q5⟩ := good_sendUpdate (m := m) (plan := plan') hg (by rw [r2]; simp; omega) (r3 (p3 hg.pos) hab)
  refine ⟨sh, o, c, ?_, q2, q4, q5.len, ?_, q5.valid⟩
  · unfold viewRequestLines
    rw [p1]
    simp only [Option.bind_eq_bind, Option.bind_some]
    rw [r1]
    exact q1
  · intro i c hi hc
    refine q5.window i c ?_ hc
    have := (List.getElem?_eq_some_iff.1 hc).1
    show (planLines plan')[i]? = some .render
    rw [r2, List.append_assoc, List.getElem?_append_right (by simp; omega), List.getElem?_append_left (by simp; omega), List.getElem?_replicate,
      if_pos (by simp; omega)]

/-- The state after a rendering. -/
def renderState (m : Missing) (s : ViewState T S) (firstLine height : Nat) : ViewState T S :=
  match renderIfDirty s.cur s.shadow firstLine height with
  | some (shadow', ops) =>
    match applyUpdate m s.client ops 0 with
    | some client' => ⟨shadow', s.cur, client'⟩
    | none => s
  | none => s

theorem renderState_reachable {m : Missing} {s : ViewState T S} (h : ViewReachable m s) (firstLine height : Nat) :
    ViewReachable m (renderState m s firstLine height) := by
  unfold renderState
  split
  · rename_i shadow' ops h1
    split
    · rename_i client' h2
      exact .step _ _ h (.render s firstLine height shadow' ops client' h1 h2)
    · exact h
  · exact h

end

/-! ### Examples -/

/-- A line of the examples. -/
abbrev line (n : Nat) (c : List Nat) : ScreenLine Nat Nat := ⟨n, n, c⟩

/-- A view of ten lines with the caret on the first, rendered in a window of one line. -/
def view1 (m : Missing) : ViewState Nat Nat :=
  renderState m ⟨.allDirty 10, line 0 [0] :: (List.range 9).map (fun i => line (i + 1) []), []⟩ 0 1

/-- The caret has moved to the second line. -/
def view2 (m : Missing) : ViewState Nat Nat :=
  ⟨(view1 m).shadow.partialInvalidate 0 2 ⟨false, false, true⟩, line 0 [] :: line 1 [0] :: (List.range 8).map (fun i => line (i + 2) []), (view1 m).client⟩

/-- The view is rendered again. -/
def view3 (m : Missing) : ViewState Nat Nat := renderState m (view2 m) 0 1

theorem view1_cur (m : Missing) : (view1 m).cur = line 0 [0] :: (List.range 9).map (fun i => line (i + 1) []) := by
  cases m <;> decide

theorem view1_reachable (m : Missing) : ViewReachable m (view1 m) := renderState_reachable (.init (line 0 [0] :: (List.range 9).map (fun i => line (i + 1) [])) (by decide)) 0 1

theorem view2_reachable (m : Missing) : ViewReachable m (view2 m) := by
  refine .step _ _ (view1_reachable m) (.invalidate _ _ _ _ _ (by decide) (by rw [view1_cur]; decide) ?_ ?_)
  · intro i a b h1 h2 ha hb
    rw [view1_cur] at ha
    match i, h2 with
    | 0, _ =>
      simp at ha hb
      subst ha hb
      exact ⟨fun _ => rfl, fun _ => rfl, fun h => by simp at h⟩
    | 1, _ =>
      simp at ha hb
      subst ha hb
      exact ⟨fun _ => rfl, fun _ => rfl, fun h => by simp at h⟩
  · intro i hi
    rw [view1_cur]
    match i, hi with
    | i + 2, _ =>
      have e : (List.range 9).map (fun i => line (i + 1) []) = line 1 [] :: (List.range 8).map (fun i => line (i + 2) []) := by decide
      rw [e]
      rfl

theorem view3_reachable (m : Missing) : ViewReachable m (view3 m) := renderState_reachable (view2_reachable m) 0 1

/-- Non-vacuity of C57: what the front end shows in the example. -/
example : (view1 .clear).client.take 4 = [some (line 0 [0]), some (line 1 []), some (line 2 []), none] ∧
    (view2 .clear).shadow.dirty = true ∧
    (view3 .clear).client.take 4 = [some (line 0 []), some (line 1 [0]), some (line 2 []), none] := by decide

/-- C57 fails for front ends that follow the protocol (frontend-protocol.md: "the cursor and
styles are updated if present.  To delete cursors from a line, the core sets the cursor
property to the empty list"): the core leaves out an empty list of cursors (view.rs:683-685),
and a line in the window keeps a cursor it should not have. -/
theorem C57_ghost_refuted : ∃ s : ViewState Nat Nat, ViewReachable .keep s ∧ s.shadow.dirty = false ∧ s.cur[0]? = some (line 0 []) ∧
    s.client[0]? = some (some (line 0 [0])) :=
  ⟨view3 .keep, view3_reachable .keep, by decide⟩

/-- The window has moved to line 8. -/
def view4 (m : Missing) : ViewState Nat Nat := renderState m (view3 m) 8 1

/-- The caret has gone back to the first line. -/
def view5 (m : Missing) : ViewState Nat Nat :=
  ⟨(view4 m).shadow.partialInvalidate 0 2 ⟨false, false, true⟩, line 0 [0] :: line 1 [] :: (List.range 8).map (fun i => line (i + 2) []), (view4 m).client⟩

theorem view4_cur (m : Missing) : (view4 m).cur = line 0 [] :: line 1 [0] :: (List.range 8).map (fun i => line (i + 2) []) := by
  cases m <;> decide

theorem view5_reachable (m : Missing) : ViewReachable m (view5 m) := by
  refine .step _ _ (renderState_reachable (view3_reachable m) 8 1) (.invalidate _ _ _ _ _ (by decide)
    (by show _ = (view4 m).cur.length; rw [view4_cur]; decide) ?_ ?_)
  · intro i a b h1 h2 ha hb
    replace ha : (view4 m).cur[i]? = some a := ha
    rw [view4_cur] at ha
    match i, h2 with
    | 0, _ =>
      simp at ha hb
      subst ha hb
      exact ⟨fun _ => rfl, fun _ => rfl, fun h => by simp at h⟩
    | 1, _ =>
      simp at ha hb
      subst ha hb
      exact ⟨fun _ => rfl, fun _ => rfl, fun h => by simp at h⟩
  · intro i hi
    show _ = (view4 m).cur[i]?
    rw [view4_cur]
    match i, hi with
    | i + 2, _ => rfl

/-- C57 fails for the cursors of lines outside the window, and the comment on `dirty`
(line_cache_shadow.rs:24-26) is wrong: after an `update` the shadow goes on saying that the
cursors are not valid (view.rs:853), so that the next move of the caret to this line is not
noticed.  The shadow is not dirty, and the front end has a line without the cursor. -/
theorem C57_clean_refuted : ∃ s : ViewState Nat Nat, ViewReachable .clear s ∧ s.shadow.dirty = false ∧ s.cur[0]? = some (line 0 [0]) ∧
    s.client[0]? = some (some (line 0 [])) ∧ (renderState .clear s 8 1).client[0]? = some (some (line 0 [])) :=
  ⟨view5 .clear, view5_reachable .clear, by decide⟩

/-- C57 fails for an empty request: the update has an empty operation, which the protocol
excludes. -/
theorem C57_empty_refuted : ∃ s : ViewState Nat Nat, ViewReachable .clear s ∧
    (viewRequestLines s.cur s.shadow 0 1 1 1).map (fun r => r.2.map UpdateOp.count) = some [1, 0, 1, 1, 7] :=
  ⟨view2 .clear, view2_reachable .clear, by decide⟩

end Xi
