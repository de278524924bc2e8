import Verif.Rope.EngineOrder
import Verif.Props.Engine

/-!
# Properties of the edit engine: the order of insertions at the same place

C88: who comes first when an edit against an older revision inserts at
the same place as an edit made since.
-/

namespace Xi

variable {α : Type}

open Chr

theorem ranksBelow_ge (p : Nat) (s : Nat × Nat) (p' : Nat) (s' : Nat × Nat) :
    FullPriority.ge ⟨p, s⟩ ⟨p', s'⟩ = false ↔ ranksBelow p s p' s' := by
  unfold FullPriority.ge ranksBelow
  simp only
  split
  · simp; omega
  · split
    · simp; omega
    · simp; omega

theorem NoAdj.at {β : Type} {p q : β → Bool} {x y : β} {v : List β} : ∀ {u : List β}, NoAdj p q (u ++ x :: y :: v) → ¬(p x = true ∧ q y = true) := by
  intro u
  induction u with
  | nil => intro h; exact h.1
  | cons a u ih => intro h; exact ih h.tail

theorem split_unique {β : Type} {f : β → Nat} {t : Nat} : ∀ {pre pre' post post' : List β} {b b' : β}, pre ++ b :: post = pre' ++ b' :: post' →
    f b = t → f b' = t → (∀ r ∈ post, f r ≠ t) → (∀ r ∈ post', f r ≠ t) → pre = pre' ∧ b = b' ∧ post = post' := by
  intro pre
  induction pre with
  | nil =>
    intro pre' post post' b b' h hb hb' hp hp'
    cases pre' with
    | nil => simp at h; exact ⟨rfl, h⟩
    | cons a pre' =>
      simp at h
      exact absurd hb' (hp b' (by rw [h.2]; simp))
  | cons a pre ih =>
    intro pre' post post' b b' h hb hb' hp hp'
    cases pre' with
    | nil =>
      simp at h
      exact absurd hb (hp' b (by rw [← h.2]; simp))
    | cons a' pre' =>
      simp at h
      obtain ⟨rfl, h⟩ := h
      obtain ⟨h1, h2⟩ := ih h hb hb' hp hp'
      exact ⟨by rw [h1], h2⟩

/-- **C88.** Every reachable state has a character-by-character account `l`
(`R e l`, as in `C23_account`), in which every edit is recorded as what it is.
An edit `d` against any retained revision combines with the edits made since
by rank: where it inserts at the same place as one of them, the edit with the lower
priority stands first, and with equal priorities that of the lower session (`TieBreak`). -/
theorem C88_priority (tok : RevId → Nat) : ∃ R : Engine α → List (Chr α) → Prop,
    (∀ e, Engine.Reach tok e → ∃ l, R e l) ∧
    (∀ e s e', Engine.empty = some e → e.setSessionId s = some e' → R e [] ∧ R e' []) ∧
    (∀ e l, R e l → e.text = visibleText e.undoneGroups l) ∧
    (∀ e l, R e l → ∀ p g t d e', d.WF → e.tryEditRev tok p g t d = some (.ok e') →
      ∃ base l', e.getRev tok t = some (some base) ∧ Records e.nextRevId g d base l l' ∧ R e' l' ∧
        TieBreak tok e p t l') ∧
    (∀ e l, R e l → ∀ S, ∃ e', e.undo S = some e' ∧ R e' l) := by
  refine ⟨Den, fun e h => h.den, ?_, fun e l h => h.text_visible, ?_, ?_⟩
  · intro e s e' he hs
    obtain ⟨D, h1, h2⟩ := Engine.empty_eq (α := α)
    rw [h2] at he; cases he
    simp [Engine.setSessionId] at hs
    rw [← hs]
    exact ⟨den_empty D h1 _, den_empty D h1 _⟩
  · intro e l h p g t d e' hd hok
    obtain ⟨pre, r, post, a1, a2, a3⟩ := h.edit_inv hok
    obtain ⟨e1, l', items, head', b1, b2, b3, _, _, b4, b5, _, _, _, _, J0, c1, c2⟩ := h.edit_full_carry a1 a2 p g hd a3
    rw [hok] at b1; cases b1
    have hi : ∀ c : Chr α, (c.insMark e.nextRevId == 0) = !c.insertedBy e.nextRevId := by
      intro c; unfold insMark; cases c.insertedBy e.nextRevId <;> rfl
    have hold : (l'.filter (fun c => !c.insertedBy e.nextRevId)).map (undelete e.nextRevId) = l := by
      rw [← b5.old]
      congr 2
      funext c
      exact (hi c).symm
    refine ⟨_, l', h.getRev a1 a2, ⟨hold, ?_, b5.del, items, _, _, b3, b4⟩, b2, ?_⟩
    · intro c hc hins
      refine b5.new c hc ?_
      unfold insMark
      rw [hins]; simp
    · obtain ⟨pre1, r1, post1, f1, f2, f3, f4⟩ := Engine.findRevToken_some a2
      have hpl : pre1 = pre ∧ r1 :: post1 = r :: post := List.append_inj (f1.symm.trans a1) f2
      obtain ⟨rfl, hpl⟩ := hpl
      cases hpl
      intro pre' b' post' g1 g2 g3 P q Q hP p' g' i x hq u c c' v hW
      obtain ⟨rfl, rfl, rfl⟩ := split_unique (f := fun r : Revision => tok r.revId) (a1.symm.trans g1) f3 g2 f4 g3
      have key := (carry_order h.revsOk h.fresh_id hold ⟨p, e.session⟩ post (pre1 ++ [r]) (by simp [a1]) J0 c1 c2).2 P q Q p' g' i x hP hq
      have hk : unionAt l' (ids (pre1 ++ [r] ++ P) ++ [q.revId, e.nextRevId]) = u ++ c :: c' :: v := by
        rw [← hW]
        unfold unionAt knownTo
        apply List.filter_congr
        intro c _
        unfold present
        cases c.insBy with
        | none => rfl
        | some a => simp [ids]
      rw [hk] at key
      have hiff := ranksBelow_ge p e.session p' q.revId.sessionId
      unfold Ord at key
      cases hg : FullPriority.ge ⟨p, e.session⟩ ⟨p', q.revId.sessionId⟩ with
      | true =>
        rw [hg] at key hiff
        have := NoAdj.at key
        exact ⟨fun h1 h2 => absurd ⟨h1, h2⟩ this, fun _ _ hr => by simp at hiff; exact hiff hr⟩
      | false =>
        rw [hg] at key hiff
        have := NoAdj.at key
        exact ⟨fun _ _ => hiff.1 rfl, fun h1 h2 => absurd ⟨h1, h2⟩ this⟩
  · intro e l h S
    obtain ⟨e', h1, h2, _⟩ := h.undo_full S
    exact ⟨e', h1, h2⟩

/-- Three edits against the same revision, inserting at the same place with priorities 5, 3 and
4: they end up in the order of their priorities. -/
example : ((Engine.new exTok [1, 2]).bind fun e => do
    let e ← e.editRev exTok 5 1 1 ⟨[.copy 0 1, .insert [50], .copy 1 2], 2⟩
    let e ← e.editRev exTok 3 2 1 ⟨[.copy 0 1, .insert [30], .copy 1 2], 2⟩
    let e ← e.editRev exTok 4 3 1 ⟨[.copy 0 1, .insert [40], .copy 1 2], 2⟩
    return e.text) = some [1, 30, 40, 50, 2] := by decide +kernel

/-- With equal priorities in one session, the newer edit stands after the older one. -/
example : ((Engine.new exTok [1, 2]).bind fun e => do
    let e ← e.editRev exTok 3 1 1 ⟨[.copy 0 1, .insert [50], .copy 1 2], 2⟩
    let e ← e.editRev exTok 3 2 1 ⟨[.copy 0 1, .insert [30], .copy 1 2], 2⟩
    return e.text) = some [1, 50, 30, 2] := by decide +kernel

end Xi
