import Verif.Core.LineBreakCursorLemmas
import Verif.Spec.Fill

/-!
# Lemmas on `RewrapCtx`
-/

namespace Xi

open Find Unicode Uax14

/-- Breaks that lead from `pos` to `n`. -/
def Chain : Nat → Nat → List (Nat × Bool) → Prop
  | pos, n, [] => pos = n
  | pos, n, b :: r => pos < b.1 ∧ b.1 ≤ n ∧ Chain b.1 n r

theorem Chain.le : ∀ {T : List (Nat × Bool)} {pos n : Nat}, Chain pos n T → pos + T.length ≤ n := by
  intro T
  induction T with
  | nil => intro pos n h; have h : pos = n := h; simp; omega
  | cons b T ih => intro pos n ⟨h1, h2, h3⟩; have := ih h3; simp only [List.length_cons]; omega

theorem Chain.append : ∀ {T1 T2 : List (Nat × Bool)} {pos m n : Nat}, Chain pos m T1 → Chain m n T2 → Chain pos n (T1 ++ T2) := by
  intro T1
  induction T1 with
  | nil => intro T2 pos m n h1 h2; have h1 : pos = m := h1; rw [h1]; exact h2
  | cons b T ih =>
    intro T2 pos m n ⟨h1, h2, h3⟩ h4
    have := h4.le
    exact ⟨h1, by omega, ih h3 h4⟩

/-- All breaks of a chain are after the place. -/
theorem Chain.mem {b : Nat × Bool} : ∀ {T : List (Nat × Bool)} {pos n : Nat}, Chain pos n T → b ∈ T → pos < b.1 ∧ b.1 ≤ n := by
  intro T
  induction T with
  | nil => intro pos n _ hb; cases hb
  | cons c T ih =>
    intro pos n ⟨h1, h2, h3⟩ hb
    rcases List.mem_cons.1 hb with rfl | hb
    · exact ⟨h1, h2⟩
    · have := ih h3 hb; omega

theorem Chain.filter_self {pos n : Nat} {T : List (Nat × Bool)} (h : Chain pos n T) : T.filter (fun b => decide (pos < b.1)) = T := by
  rw [List.filter_eq_self]
  intro b hb
  simpa using (h.mem hb).1

/-- What is left of a chain after a break of it. -/
theorem Chain.filter_cons {pos n : Nat} {b : Nat × Bool} {T : List (Nat × Bool)} (h : Chain pos n (b :: T)) :
    (b :: T).filter (fun c => decide (b.1 < c.1)) = T := by
  rw [List.filter_cons_of_neg (by simp)]
  exact h.2.2.filter_self

/-- A sorted list is a chain. -/
theorem chain_of_sorted : ∀ {T : List (Nat × Bool)} {pos n : Nat} {f : Bool}, T.Pairwise (fun a b => a.1 < b.1) → (∀ b ∈ T, pos < b.1 ∧ b.1 < n) → pos < n →
    Chain pos n (T ++ [(n, f)]) := by
  intro T
  induction T with
  | nil => intro pos n f _ _ h; exact ⟨h, Nat.le_refl _, rfl⟩
  | cons b T ih =>
    intro pos n f hp hb _
    rw [List.pairwise_cons] at hp
    have h1 := hb b (by simp)
    exact ⟨h1.1, by omega, ih hp.2 (fun c hc => ⟨hp.1 c hc, (hb c (by simp [hc])).2⟩) h1.2⟩

/-- A line does not end before what is on it. -/
theorem fill_ge {W : Type} {ops : WidthOps W} {width : Nat → Nat → W} {maxWidth : W} : ∀ (T : List (Nat × Bool)) (lw : W) {pos n j : Nat}, Chain pos n T →
    fill ops width maxWidth lw pos T = some j → pos ≤ j := by
  intro T
  induction T with
  | nil => intro lw pos n j _ h; cases h
  | cons b T ih =>
    intro lw pos n j hc h
    have h1 := hc.1
    rw [fill] at h
    repeat' split at h
    all_goals first | (cases h; done) | (injection h with h; omega) | (have := ih _ hc.2.2 h; omega)

namespace RewrapCtx

variable {W : Type}

/-- The width of the word from `a` to `b`. -/
def widthIn (measure : List UInt8 → W) (content : List UInt8) (a b : Nat) : W := measure ((content.take b).drop a)

/-- The breaks `T` after `pos` as the context keeps them. -/
def words (measure : List UInt8 → W) (content : List UInt8) : Nat → List (Nat × Bool) → List (PotentialBreak W)
  | _, [] => []
  | pos, b :: r => ⟨b.1, widthIn measure content pos b.1, b.2⟩ :: words measure content b.1 r

/-- What the cursor gives until the end. -/
def streamOf (r : Rope) (pos : Nat) (inner : List (Nat × Bool)) : List (Nat × Bool) :=
  if pos < r.len then inner ++ [(r.len, LineBreakCursor.endsLine r.text)] else []

/-- The cursor of the context: it is at `pos`, and will give the breaks `T`. -/
def CursorAt (r : Rope) (c : LineBreakCursor) (pos : Nat) (T : List (Nat × Bool)) : Prop :=
  ∃ inner, LineBreakCursor.Will r c inner ∧ T = streamOf r pos inner ∧ Chain pos r.len T

/-- The context has the breaks `T` after `pos` before it. -/
structure Ready (r : Rope) (measure : List UInt8 → W) (maxWidth : W) (ctx : RewrapCtx W) (pos : Nat) (T : List (Nat × Bool)) : Prop where
  text : ctx.text = r
  measure_eq : ctx.measure = measure
  max_eq : ctx.maxWidth = maxWidth
  parts : ∃ T1 T2, T = T1 ++ T2 ∧ ctx.potBreaks.drop ctx.potBreakIx = words measure r.text pos T1 ∧
    Chain pos ctx.lbCursorPos T1 ∧ CursorAt r ctx.lbCursor ctx.lbCursorPos T2

theorem Ready.chain {r : Rope} {measure : List UInt8 → W} {maxWidth : W} {ctx : RewrapCtx W} {pos : Nat} {T : List (Nat × Bool)}
    (h : Ready r measure maxWidth ctx pos T) : Chain pos r.len T := by
  obtain ⟨T1, T2, rfl, _, h1, _, _, _, h2⟩ := h.parts
  exact h1.append h2

/-- One step of the cursor. -/
theorem CursorAt.next {r : Rope} {c : LineBreakCursor} {pos : Nat} {T : List (Nat × Bool)} (h : CursorAt r c pos T) (hp : pos < r.len) :
    ∃ c' b T', c.next = some (c', b) ∧ T = b :: T' ∧ CursorAt r c' b.1 T' := by
  obtain ⟨inner, hw, hT, hc⟩ := h
  rw [streamOf, if_pos hp] at hT
  obtain ⟨c', p, b, e, hr⟩ := LineBreakCursor.next_spec hw
  rcases hr with ⟨bs', e1, hw'⟩ | ⟨e1, e2, e3, hw'⟩
  · rw [e1] at hT
    refine ⟨c', (p, b), bs' ++ [(r.len, LineBreakCursor.endsLine r.text)], e, hT, bs', hw', ?_, ?_⟩
    · rw [hT] at hc
      have : p < r.len := (hc.2.2.mem (b := (r.len, LineBreakCursor.endsLine r.text)) (List.mem_append_right _ (List.mem_singleton.2 rfl))).1
      rw [streamOf, if_pos this]
    · rw [hT] at hc; exact hc.2.2
  · rw [e1] at hT
    refine ⟨c', (p, b), [], e, by rw [hT, e2, e3]; rfl, [], hw', ?_, ?_⟩
    · rw [streamOf, if_neg (by simp only; omega)]
    · exact e2

/-- The loop of `refill_pot_breaks`. -/
theorem refillLoop_spec {r : Rope} (hr : r.Balanced) (measure : List UInt8 → W) : ∀ (left : Nat) {c : LineBreakCursor} {pos : Nat} {T : List (Nat × Bool)} (acc : List (PotentialBreak W)),
    CursorAt r c pos T → ∃ c' pos' T1 T2, refillLoop r.len r.text measure left c pos acc = some (c', pos', acc ++ words measure r.text pos T1) ∧
      T = T1 ++ T2 ∧ Chain pos pos' T1 ∧ CursorAt r c' pos' T2 ∧ (0 < left → pos < r.len → T1 ≠ []) := by
  intro left
  induction left with
  | zero => intro c pos T acc h; exact ⟨c, pos, [], T, by simp [refillLoop, words], rfl, rfl, h, fun h => absurd h (by simp)⟩
  | succ left ih =>
    intro c pos T acc h
    unfold refillLoop
    by_cases hp : pos < r.len
    · rw [if_pos hp]
      obtain ⟨c', b, T', e1, e2, e3⟩ := h.next hp
      rw [e1]
      simp only [Option.bind_eq_bind, Option.bind_some]
      have hch : Chain pos r.len T := by obtain ⟨_, _, _, h⟩ := h; exact h
      rw [e2] at hch
      have hlen : r.len = r.text.length := by obtain ⟨n, hw⟩ := hr; exact hw.len_eq
      rw [word, if_pos ⟨Nat.le_of_lt hch.1, by rw [← hlen]; exact hch.2.1⟩]
      simp only [Option.bind_some]
      obtain ⟨c'', pos', T1, T2, g1, g2, g3, g4, _⟩ := ih (acc ++ [⟨b.1, measure ((r.text.take b.1).drop pos), b.2⟩]) e3
      refine ⟨c'', pos', b :: T1, T2, ?_, by rw [e2, g2]; rfl, ⟨hch.1, by have := g3.le; omega, g3⟩, g4, fun _ _ => by simp⟩
      rw [g1, List.append_assoc]
      rfl
    · rw [if_neg hp]
      exact ⟨c, pos, [], T, by simp [words], rfl, rfl, h, fun _ h => absurd h hp⟩

/-- `refill_pot_breaks`, if need be. -/
theorem ensure_spec {r : Rope} (hr : r.Balanced) {measure : List UInt8 → W} {maxWidth : W} {ctx : RewrapCtx W} {pos : Nat} {T : List (Nat × Bool)}
    (h : Ready r measure maxWidth ctx pos T) (hp : pos < r.len) :
    ∃ ctx' b T', ctx.ensure r.text = some ctx' ∧ T = b :: T' ∧ ctx'.text = r ∧ ctx'.maxWidth = maxWidth ∧
      ctx'.potBreaks[ctx'.potBreakIx]? = some ⟨b.1, widthIn measure r.text pos b.1, b.2⟩ ∧ Ready r measure maxWidth ctx' pos T ∧
      Ready r measure maxWidth { ctx' with potBreakIx := ctx'.potBreakIx + 1 } b.1 T' := by
  have key : ∀ (ctx : RewrapCtx W) (T1 T2 : List (Nat × Bool)), ctx.text = r → ctx.measure = measure → ctx.maxWidth = maxWidth → T = T1 ++ T2 → T1 ≠ [] →
      ctx.potBreaks.drop ctx.potBreakIx = words measure r.text pos T1 → Chain pos ctx.lbCursorPos T1 → CursorAt r ctx.lbCursor ctx.lbCursorPos T2 →
      ∃ b T', T = b :: T' ∧ ctx.text = r ∧ ctx.maxWidth = maxWidth ∧
      ctx.potBreaks[ctx.potBreakIx]? = some ⟨b.1, widthIn measure r.text pos b.1, b.2⟩ ∧ Ready r measure maxWidth ctx pos T ∧
      Ready r measure maxWidth { ctx with potBreakIx := ctx.potBreakIx + 1 } b.1 T' := by
    intro ctx T1 T2 h1 h2 h3 h4 h5 h6 h7 h8
    cases T1 with
    | nil => exact absurd rfl h5
    | cons b T1 =>
      have hget : ctx.potBreaks[ctx.potBreakIx]? = some ⟨b.1, widthIn measure r.text pos b.1, b.2⟩ := by
        have := congrArg (fun l => l[0]?) h6
        simpa [words] using this
      refine ⟨b, T1 ++ T2, h4, h1, h3, hget, ⟨h1, h2, h3, _, _, h4, h6, h7, h8⟩, ⟨h1, h2, h3, T1, T2, rfl, ?_, h7.2.2, h8⟩⟩
      show ctx.potBreaks.drop (ctx.potBreakIx + 1) = _
      rw [← List.drop_drop, h6]
      rfl
  obtain ⟨T1, T2, h1, h2, h3, h4⟩ := h.parts
  unfold ensure
  by_cases hx : ctx.potBreaks.length ≤ ctx.potBreakIx
  · rw [if_pos hx]
    have hT1 : T1 = [] := by
      rw [List.drop_eq_nil_of_le hx] at h2
      cases T1 with
      | nil => rfl
      | cons b T1 => simp [words] at h2
    subst hT1
    have h3 : pos = ctx.lbCursorPos := h3
    rw [← h3] at h4
    obtain ⟨c', pos', U1, U2, g1, g2, g3, g4, g5⟩ := refillLoop_spec hr measure maxPotBreaks [] h4
    unfold refill
    rw [h.text, h.measure_eq, ← h3, g1]
    simp only [Option.bind_eq_bind, Option.bind_some, List.nil_append]
    obtain ⟨b, T', k⟩ := key ⟨r, c', pos', measure, words measure r.text pos U1, 0, maxWidth⟩ U1 U2 rfl rfl rfl (by rw [h1, g2]; rfl) (g5 (by decide) hp) rfl g3 g4
    exact ⟨_, b, T', by rw [h.max_eq]; rfl, k⟩
  · rw [if_neg hx]
    have hT1 : T1 ≠ [] := by
      intro e
      rw [e] at h2
      have := congrArg List.length h2
      simp [words] at this
      omega
    obtain ⟨b, T', k⟩ := key ctx T1 T2 h.text h.measure_eq h.max_eq h1 hT1 h2 h3 h4
    exact ⟨ctx, b, T', rfl, k⟩

/-- The loop of `wrap_one_line`. -/
theorem wrapOneLoop_spec {r : Rope} (hr : r.Balanced) (ops : WidthOps W) {measure : List UInt8 → W} {maxWidth : W} : ∀ (T : List (Nat × Bool)) (fuel : Nat) {ctx : RewrapCtx W} {pos : Nat}
    (lw : W), Ready r measure maxWidth ctx pos T → T.length < fuel → ∃ ctx',
      wrapOneLoop ops r.text fuel ctx lw pos = some (ctx', fill ops (widthIn measure r.text) maxWidth lw pos T) ∧
      ∀ j, fill ops (widthIn measure r.text) maxWidth lw pos T = some j → Ready r measure maxWidth ctx' j (T.filter fun b => decide (j < b.1)) := by
  intro T
  induction T with
  | nil =>
    intro fuel ctx pos lw h hf
    obtain ⟨fuel, rfl⟩ : ∃ n, fuel = n + 1 := ⟨fuel - 1, by simp at hf; omega⟩
    have : pos = r.len := h.chain
    unfold wrapOneLoop
    rw [h.text, if_neg (by omega)]
    exact ⟨ctx, rfl, fun j hj => by cases hj⟩
  | cons b T ih =>
    intro fuel ctx pos lw h hf
    obtain ⟨fuel, rfl⟩ : ∃ n, fuel = n + 1 := ⟨fuel - 1, by simp at hf; omega⟩
    have hch := h.chain
    have hp : pos < r.len := by have := hch.1; have := hch.2.1; omega
    obtain ⟨ctx', b', T', e1, e2, e3, e4, e5, e6, e7⟩ := ensure_spec hr h hp
    injection e2 with e2 e2'
    subst e2 e2'
    unfold wrapOneLoop
    rw [h.text, if_pos hp, e1]
    simp only [Option.bind_eq_bind, Option.bind_some, e5, e3, e4]
    have hself : Ready r measure maxWidth ctx' pos ((b :: T).filter fun c => decide (pos < c.1)) := by rw [hch.filter_self]; exact e6
    have hnext : Ready r measure maxWidth { ctx' with potBreakIx := ctx'.potBreakIx + 1 } b.1 ((b :: T).filter fun c => decide (b.1 < c.1)) := by
      rw [hch.filter_cons]; exact e7
    simp only [e3, e4] at e7 hnext
    have hend : T.isEmpty = decide (b.1 = r.len) := by
      cases T with
      | nil => have : b.1 = r.len := hch.2.2; simp [this]
      | cons c T => have h1 := hch.2.2.1; have h2 := hch.2.2.2.1; simp; omega
    rw [fill]
    by_cases hb : b.2 = false
    · rw [if_pos hb, if_pos hb]
      by_cases hz : (ops.isZero lw && ops.ge (widthIn measure r.text pos b.1) maxWidth) = true
      · rw [if_pos hz, if_pos hz, hend]
        by_cases hl : b.1 = r.len
        · rw [if_pos hl]
          exact ⟨ctx', by simp [hl], fun j hj => by simp [hl] at hj⟩
        · rw [if_neg hl]
          refine ⟨_, by simp [hl]; rfl, fun j hj => ?_⟩
          simp only [hl, decide_false, Bool.false_eq_true, if_false, Option.some.injEq] at hj
          subst hj
          exact hnext
      · rw [if_neg hz, if_neg hz]
        by_cases hg : ops.gt (ops.add lw (widthIn measure r.text pos b.1)) maxWidth = true
        · rw [if_pos hg, if_pos hg]
          refine ⟨ctx', rfl, fun j hj => ?_⟩
          injection hj with hj
          subst hj
          exact hself
        · rw [if_neg hg, if_neg hg]
          obtain ⟨c, k1, k2⟩ := ih fuel (ops.add lw (widthIn measure r.text pos b.1)) e7 (by simp at hf; omega)
          refine ⟨c, k1, fun j hj => ?_⟩
          have := k2 j hj
          have hj' : b.1 ≤ j := fill_ge _ _ hch.2.2 hj
          rw [List.filter_cons_of_neg (by simpa using hj')]
          exact this
    · rw [if_neg hb, if_neg hb]
      by_cases hg : (!ops.isZero lw && ops.gt (ops.add (widthIn measure r.text pos b.1) lw) maxWidth) = true
      · rw [if_pos hg, if_pos hg]
        refine ⟨ctx', rfl, fun j hj => ?_⟩
        injection hj with hj
        subst hj
        exact hself
      · rw [if_neg hg, if_neg hg]
        refine ⟨_, rfl, fun j hj => ?_⟩
        injection hj with hj
        subst hj
        exact hnext

end RewrapCtx

end Xi
