import Verif.Plugin.StateCacheLemmas

/-!
# The cache of states after an edit
-/

namespace Xi

namespace Plugin

variable {S : Type}

open StateCache

/-- The states after the edit are dropped. -/
def Cut (c c' : StateCache S) (A : List UInt8) : Prop :=
  ∃ pre post, c.entries = pre ++ post ∧ (∀ e ∈ pre, e.line ≤ A.count newline) ∧ (∀ e ∈ post, A.count newline < e.line) ∧
    c' = { c.truncateFrontier (lastLine pre) with entries := pre }

/-- The states after the edit are moved. -/
def Moved (c c' : StateCache S) (A D N : List UInt8) : Prop :=
  ∃ pre mid post, c.entries = pre ++ mid ++ post ∧ (∀ e ∈ pre, e.line ≤ A.count newline) ∧
    (∀ e ∈ mid, A.count newline < e.line ∧ e.line ≤ (A ++ D).count newline) ∧ (∀ e ∈ post, (A ++ D).count newline < e.line) ∧
    c' = { c with
      entries := pre ++ post.map (movedEntry (N.count newline) (D.count newline) N.length D.length)
      frontier := patchLoop (lastLine pre) ((post.map (movedEntry (N.count newline) (D.count newline) N.length D.length)).head?.map (·.line))
        ((N.count newline : Int) - D.count newline) c.frontier true }

theorem patchup_eq (b : ChunkCache) (F : List Nat) {pre : List (CacheEntry S)} (post : List (CacheEntry S)) {k k' : Int} (hk : k = k') :
    patchupFrontier ⟨b, pre ++ post, F⟩ pre.length k = ⟨b, pre ++ post, patchLoop (lastLine pre) (post.head?.map (·.line)) k' F true⟩ := by
  rw [patchupFrontier, lineBefore_spec (pre := pre) (post := post) rfl, hk]
  simp only
  rw [List.getElem?_append_right (Nat.le_refl _), Nat.sub_self, ← List.head?_eq_getElem?]

theorem simpleInsert_moved {c : StateCache S} {A N B : List UInt8} (hp : Placed c (A ++ [] ++ B)) :
    Moved c (c.simpleInsert A.length N.length (N.count newline)) A [] N := by
  obtain ⟨pre, post, h1, h2, h3, h4⟩ := afterOffset_spec (A := A) (B := B) (by simpa using hp)
  refine ⟨pre, [], post, by simpa using h1, h2, by simp, by simpa using h3, ?_⟩
  have hm : post.map (fun e => { e with line := e.line + N.count newline, offset := e.offset + N.length }) =
      post.map (movedEntry (N.count newline) (([] : List UInt8).count newline) N.length ([] : List UInt8).length) := by
    apply List.map_congr_left
    intro e _
    simp [movedEntry]
  rw [StateCache.simpleInsert, h4]
  simp only [h1, List.take_left', List.drop_left', hm]
  rw [patchup_eq _ _ _ (k' := (N.count newline : Int) - (([] : List UInt8).count newline : Nat)) (by simp)]

theorem moveBack_all {A D : List UInt8} : ∀ {post : List (CacheEntry S)}, (∀ e ∈ post, D.count newline ≤ e.line ∧ D.length ≤ e.offset) →
    post.mapM (moveBack (D.count newline) D.length) = some (post.map (movedEntry 0 (D.count newline) 0 D.length))
  | [], _ => rfl
  | e :: post, h => by
    have h1 := h e (by simp)
    rw [List.mapM_cons, moveBack_all (A := A) (fun x hx => h x (by simp [hx]))]
    simp [moveBack, checkedSub, h1.1, h1.2, movedEntry]

theorem simpleDelete_followed {c : StateCache S} {A D B : List UInt8} (hp : Placed c (A ++ D ++ B)) (h1 : CharBoundary (A ++ D ++ B) A.length)
    (h2 : CharBoundary (A ++ D ++ B) (A.length + D.length)) :
    ∃ c', c.simpleDelete A.length (A.length + D.length) = some c' ∧ (Cut c c' A ∨ Moved c c' A D []) := by
  have hp' : Placed c (A ++ (D ++ B)) := by simpa using hp
  rw [StateCache.simpleDelete]
  by_cases hin : A.length ≥ c.buf.offset ∧ A.length + D.length ≤ c.buf.offset + c.buf.contents.length
  · rw [if_pos hin]
    obtain ⟨X, Y, ht, hh⟩ := hp.coh.held
    have hslice : strSlice c.buf.contents (A.length - c.buf.offset) (A.length + D.length - c.buf.offset) = some D := by
      rw [slice_inner hh ht (by omega) (by omega) (by rw [show c.buf.offset + (A.length - c.buf.offset) = A.length by omega]; exact h1)
        (by rw [show c.buf.offset + (A.length + D.length - c.buf.offset) = A.length + D.length by omega]; exact h2)]
      rw [show c.buf.offset + (A.length - c.buf.offset) = A.length by omega, show c.buf.offset + (A.length + D.length - c.buf.offset) = A.length + D.length by omega,
        part, ← List.length_append, List.take_left', List.drop_left'] <;> rfl
    obtain ⟨pre, rest, g1, g2, g3, g4⟩ := afterOffset_spec hp'
    have hsr : rest.Pairwise (fun a b : CacheEntry S => a.line < b.line) := by
      have := hp.sorted; rw [g1] at this; exact (List.pairwise_append.1 this).2.1
    obtain ⟨mid, post, m1, m2, m3⟩ := split_sorted hsr ((A ++ D).count newline)
    have hmem : ∀ e ∈ rest, e ∈ c.entries := fun e he => by rw [g1]; simp [he]
    have hoff : ∀ e ∈ rest, (e.offset ≤ A.length + D.length ↔ e.line ≤ (A ++ D).count newline) := by
      intro e he
      rw [← List.length_append]
      exact hp.offset_le_iff (A := A ++ D) (hmem e he)
    have hdrop : rest.dropWhile (fun e => e.offset ≤ A.length + D.length) = post := by
      rw [m1, List.dropWhile_append_of_pos]
      · cases post with
        | nil => rfl
        | cons x xs =>
          have a1 := m3 x (by simp)
          have a2 := hoff x (by rw [m1]; simp)
          rw [List.dropWhile_cons (x := x), if_neg]
          simp only [decide_eq_true_eq]
          omega
      · intro e he
        simp only [decide_eq_true_eq]
        exact (hoff e (by rw [m1]; simp [he])).2 (m2 e he)
    have hback := moveBack_all (A := A) (D := D) (post := post) (by
      intro e he
      have a1 := m3 e he
      have a2 := hoff e (by rw [m1]; simp [he])
      rw [List.count_append] at a1 a2
      omega)
    rw [hslice]
    simp only [Option.bind_eq_bind, Option.bind_some, g4, show checkedSub (A.length + D.length) A.length = some D.length from checkedSub_add _ _]
    rw [g1, List.drop_left', hdrop, hback, List.take_left']
    · refine ⟨_, rfl, .inr ⟨pre, mid, post, by rw [g1, m1, List.append_assoc], g2, fun e he => ⟨g3 e (by rw [m1]; simp [he]), m2 e he⟩, m3, ?_⟩⟩
      exact patchup_eq c.buf c.frontier (pre := pre) _ (k := -(D.count newline : Int)) (k' := (([] : List UInt8).count newline : Nat) - (D.count newline : Int)) (by simp)
    · rfl
    · rfl
  · rw [if_neg hin]
    obtain ⟨pre, post, g1, g2, g3, g4⟩ := truncateCache_spec hp'
    exact ⟨_, rfl, .inl ⟨pre, post, g1, g2, g3, g4⟩⟩

/-- The edits that are followed without dropping states. -/
def Simple (d : Delta UInt8) (D N : List UInt8) : Prop := (d.asSimpleInsert = some N ∧ D = []) ∨ (d.asSimpleInsert = none ∧ d.isSimpleDelete = true ∧ N = [])

theorem asSimpleInsert_delete {d : Delta UInt8} (h : d.isSimpleDelete = true) : d.asSimpleInsert = none := by
  obtain ⟨els, n⟩ := d
  simp only [Delta.isSimpleDelete] at h
  simp only [Delta.asSimpleInsert]
  repeat' split at h
  all_goals simp_all [Delta.asSimpleInsertTail]

theorem updateLineCache_spec {c : StateCache S} {t t' : List UInt8} {d : Delta UInt8} (hp : Placed c t) (hd : d.WF) (hl : t.length = d.baseLen)
    (hw : WholeChars t d) (ha : d.apply t = some t') :
    ∃ A D N B c', t = A ++ D ++ B ∧ t' = A ++ N ++ B ∧ d.summary.1 = (A.length, (A ++ D).length) ∧ c.updateLineCache d = some c' ∧
      (Cut c c' A ∨ Moved c c' A D N ∧ Simple d D N) := by
  have hut : Utf8 t := by obtain ⟨a, b, h, -⟩ := hp.coh.start; rw [h]; exact ⟨a ++ b, by simp⟩
  obtain ⟨s1, s2, mid, s3, s4⟩ := d.summary_spec t hd hl
  rw [d.apply_spec t hd hl] at ha
  have ha : elsText t d.els = t' := Option.some.inj ha
  have ht' : t' = t.take d.summary.1.1 ++ mid ++ t.drop d.summary.1.2 := by rw [← ha]; exact s4
  have hA : (t.take d.summary.1.1).length = d.summary.1.1 := by rw [List.length_take]; omega
  have hD : (part t d.summary.1.1 d.summary.1.2).length = d.summary.1.2 - d.summary.1.1 := by
    rw [part, List.length_drop, List.length_take]; omega
  have hAD : t.take d.summary.1.1 ++ part t d.summary.1.1 d.summary.1.2 = t.take d.summary.1.2 := by
    rw [part, show t.take d.summary.1.1 = (t.take d.summary.1.2).take d.summary.1.1 by rw [List.take_take]; congr 1; omega, List.take_append_drop]
  have hsum : d.summary.1 = ((t.take d.summary.1.1).length, (t.take d.summary.1.1 ++ part t d.summary.1.1 d.summary.1.2).length) := by
    rw [List.length_append, hA, hD, show d.summary.1.1 + (d.summary.1.2 - d.summary.1.1) = d.summary.1.2 by omega]
  have htt : t = t.take d.summary.1.1 ++ part t d.summary.1.1 d.summary.1.2 ++ t.drop d.summary.1.2 := by
    rw [hAD, List.take_append_drop]
  have hstep : c.updateLineCache d = (match d.asSimpleInsert with
      | some n => if d.summary.1.2 - d.summary.1.1 = 0 ∧ d.summary.2 = n.length then some (c.simpleInsert d.summary.1.1 d.summary.2 (n.count newline)) else none
      | none =>
        if d.isSimpleDelete then
          if d.summary.2 = 0 then c.simpleDelete d.summary.1.1 d.summary.1.2 else none
        else some (c.truncateCache d.summary.1.1)) := by
    rw [updateLineCache, Interval.new, if_pos s1]
    rfl
  rw [hstep]
  cases h3 : d.asSimpleInsert with
  | some s =>
    obtain ⟨i, g2, g3, g4⟩ := asSimpleInsert_shape hd h3
    have hmid : mid = s := by
      have : t.take i ++ mid ++ t.drop i = t.take i ++ s ++ t.drop i := by
        have e1 : elsText t d.els = t.take i ++ s ++ t.drop i := by
          rw [g4, elsText_append, elsText_pre, elsText_append, ← hl, elsText_post]; simp
        rw [← e1, ha, ht', g3]
      exact List.append_cancel_left (List.append_cancel_right this)
    have hs12 : d.summary.1.2 - d.summary.1.1 = 0 := by rw [g3]; simp
    have hD0 : part t d.summary.1.1 d.summary.1.2 = [] := List.eq_nil_of_length_eq_zero (by rw [hD]; exact hs12)
    rw [hmid] at s3
    simp only
    rw [if_pos ⟨hs12, s3.symm⟩]
    refine ⟨_, _, _, _, _, htt, ht', hsum, rfl, .inr ⟨?_, .inl ⟨by rw [h3, hmid], hD0⟩⟩⟩
    rw [hD0, hmid]
    have := simpleInsert_moved (c := c) (A := t.take d.summary.1.1) (N := s) (B := t.drop d.summary.1.2) (by rw [hD0] at htt; rw [← htt]; exact hp)
    rw [hA, s3] at this
    exact this
  | none =>
    simp only
    by_cases h2 : d.isSimpleDelete = true
    · obtain ⟨i, e, g1, g2, g3, g4⟩ := isSimpleDelete_shape hd h2
      obtain ⟨els, n⟩ := d
      simp only at hl g4 g2
      subst hl
      have hi := boundary_pre (i := i) hut hw (fun el hel => by rw [g4]; simp [hel])
      have he := boundary_post (e := e) hut hw (fun el hel => by rw [g4]; simp [hel])
      have hmid : mid = [] := by
        have : t.take i ++ mid ++ t.drop e = t.take i ++ [] ++ t.drop e := by
          have e1 : elsText t els = t.take i ++ [] ++ t.drop e := by
            rw [g4, elsText_append, elsText_pre, elsText_post]; simp
          rw [← e1]
          simp only [g3] at ht'
          rw [← ht']
          exact ha.symm
        exact List.append_cancel_left (List.append_cancel_right this)
      rw [hmid] at s3
      rw [if_pos h2, if_pos (by rw [← s3]; rfl)]
      have hAl : (t.take (Delta.summary ⟨els, t.length⟩).1.1).length + (part t (Delta.summary ⟨els, t.length⟩).1.1 (Delta.summary ⟨els, t.length⟩).1.2).length =
          (Delta.summary ⟨els, t.length⟩).1.2 := by rw [hA, hD]; omega
      have hb1 : CharBoundary t (Delta.summary ⟨els, t.length⟩).1.1 := by rw [g3]; exact hi
      have hb2 : CharBoundary t (Delta.summary ⟨els, t.length⟩).1.2 := by rw [g3]; exact he
      obtain ⟨c', k1, k2⟩ := simpleDelete_followed (c := c) (by rw [← htt]; exact hp) (by rw [← htt, hA]; exact hb1) (by rw [← htt, hAl]; exact hb2)
      rw [hAl, hA] at k1
      refine ⟨_, _, _, _, c', htt, ht', hsum, k1, ?_⟩
      rcases k2 with k2 | k2
      · exact .inl k2
      · exact .inr ⟨by rw [hmid]; exact k2, .inr ⟨h3, h2, hmid⟩⟩
    · rw [if_neg h2]
      obtain ⟨pre, post, g1, g2, g3, g4⟩ := truncateCache_spec (c := c) (A := t.take d.summary.1.1) (B := part t d.summary.1.1 d.summary.1.2 ++ t.drop d.summary.1.2)
        (by rw [← List.append_assoc, ← htt]; exact hp)
      refine ⟨_, _, _, _, _, htt, ht', hsum, rfl, .inl ⟨pre, post, g1, g2, g3, ?_⟩⟩
      rw [← g4, hA]

theorem Cut.buf {c c' : StateCache S} {A : List UInt8} (h : Cut c c' A) : c'.buf = c.buf := by
  obtain ⟨pre, post, -, -, -, rfl⟩ := h
  exact (truncateFrontier_other c _).2

theorem Moved.buf {c c' : StateCache S} {A D N : List UInt8} (h : Moved c c' A D N) : c'.buf = c.buf := by
  obtain ⟨pre, mid, post, -, -, -, -, rfl⟩ := h
  rfl

theorem Cut.placed {c c' : StateCache S} {A X Y : List UInt8} (h : Cut c c' A) (hp : Placed c (A ++ X)) {b : ChunkCache} (hb : Coherent b (A ++ Y)) :
    Placed { c' with buf := b } (A ++ Y) := by
  obtain ⟨pre, post, h1, h2, -, rfl⟩ := h
  exact placed_prefix hp b _ hb h1 h2

theorem Moved.placed {c c' : StateCache S} {A D N B : List UInt8} (h : Moved c c' A D N) (hp : Placed c (A ++ D ++ B)) {b : ChunkCache} (hb : Coherent b (A ++ N ++ B)) :
    Placed { c' with buf := b } (A ++ N ++ B) := by
  obtain ⟨pre, mid, post, h1, h2, -, h4, rfl⟩ := h
  exact placed_edit hp b _ hb h1 h2 h4

theorem truncateCache_cut {c : StateCache S} {t : List UInt8} (hp : Placed c t) : Cut c (c.truncateCache 0) [] := truncateCache_spec (A := []) (by simpa using hp)

/-- The states after any edit are at the starts of lines. -/
theorem update_placed {c : StateCache S} {t t' : List UInt8} {d : Delta UInt8} (hp : Placed c t) (hd : d.WF) (hl : t.length = d.baseLen)
    (hw : WholeChars t d) (ha : d.apply t = some t') (rev : Nat) :
    ∃ c', c.update (some d) t'.length (t'.count newline + 1) rev = some c' ∧ Placed c' t' ∧ c'.buf.rev = rev := by
  obtain ⟨A, D, N, B, c1, h1, h2, h3, h4, h5⟩ := updateLineCache_spec hp hd hl hw ha
  obtain ⟨b, k1, k2, k3⟩ := update_spec hp.coh hd hl hw ha rev
  have hbuf : c1.buf = c.buf := by rcases h5 with h5 | ⟨h5, -⟩ <;> exact h5.buf
  refine ⟨{ c1 with buf := b }, ?_, ?_, k3⟩
  · rw [StateCache.update, updateStates, h4]
    simp only [Option.bind_eq_bind, Option.bind_some, hbuf, k1]
    rfl
  · rcases h5 with h5 | ⟨h5, -⟩
    · rw [h1, List.append_assoc] at hp
      rw [h2, List.append_assoc] at k2 ⊢
      exact h5.placed hp k2
    · rw [h1] at hp
      rw [h2] at k2 ⊢
      exact h5.placed hp k2

theorem update_none_placed {c : StateCache S} {t t' : List UInt8} (hp : Placed c t) (ht' : Utf8 t') (rev : Nat) :
    ∃ c', c.update none t'.length (t'.count newline + 1) rev = some c' ∧ Placed c' t' ∧ c'.buf.rev = rev := by
  have h5 := truncateCache_cut hp
  refine ⟨{ c.truncateCache 0 with buf := { c.buf.clear with bufSize := t'.length, numLines := t'.count newline + 1, rev := rev } }, ?_, ?_, rfl⟩
  · rw [StateCache.update, updateStates]
    simp only [Option.bind_eq_bind, Option.bind_some, h5.buf]
    rfl
  · exact h5.placed (X := t) (Y := t') (by simpa using hp) (held_clear ht')

end Plugin

end Xi
