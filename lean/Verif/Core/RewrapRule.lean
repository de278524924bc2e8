import Verif.Core.RewrapLines
import Verif.Core.WrapEdit

/-!
# The rule for filling lines, and that the code follows it
-/

namespace Xi

open Find Unicode Uax14 LineBreakCursor RewrapCtx

variable {W : Type} {ops : WidthOps W}

/-- What is left of a chain. -/
theorem Chain.filter_le : ∀ {T : List (Nat × Bool)} {pos n i : Nat}, Chain pos n T → pos ≤ i → i ≤ n → Chain i n (T.filter fun b => decide (i < b.1)) := by
  intro T
  induction T with
  | nil => intro pos n i h h1 h2; have h : pos = n := h; exact (show i = n by omega)
  | cons b T ih =>
    intro pos n i ⟨h1, h2, h3⟩ h4 h5
    by_cases hb : i < b.1
    · rw [List.filter_cons_of_pos (by simpa using hb)]
      refine ⟨hb, h2, ?_⟩
      rw [List.filter_eq_self.2]
      · exact h3
      · intro c hc
        have := (h3.mem hc).1
        simp; omega
    · rw [List.filter_cons_of_neg (by simpa using hb)]
      exact ih h3 (by omega) h5

/-- What filling does. -/
theorem fill_bounds {width : Nat → Nat → W} {maxWidth : W} (hl : ops.Laws) : ∀ (T : List (Nat × Bool)) (lw : W) {pos n j : Nat}, Chain pos n T →
    fill ops width maxWidth lw pos T = some j → pos ≤ j ∧ j ≤ n ∧ (ops.isZero lw = true → pos < j) ∧ (j = pos ∨ ∃ b ∈ T, b.1 = j) ∧ (j = n → (n, true) ∈ T) := by
  intro T
  induction T with
  | nil => intro lw pos n j _ h; cases h
  | cons b T ih =>
    intro lw pos n j hc h
    obtain ⟨h1, h2, h3⟩ := hc
    rw [fill] at h
    split at h
    · split at h
      · rename_i hz
        split at h
        · cases h
        · rename_i hT
          injection h with h
          subst h
          refine ⟨by omega, h2, fun _ => h1, .inr ⟨b, by simp, rfl⟩, fun e => ?_⟩
          have := h3.le
          cases T with
          | nil => simp at hT
          | cons => simp at this; omega
      · rename_i hz
        split at h
        · rename_i hg
          injection h with h
          subst h
          refine ⟨Nat.le_refl _, by omega, fun h0 => ?_, .inl rfl, fun e => by omega⟩
          simp only [h0, Bool.true_and, Bool.not_eq_true] at hz
          rw [hl.keeps h0 hz] at hg
          cases hg
        · obtain ⟨a1, a2, a3, a4, a5⟩ := ih _ h3 h
          refine ⟨by omega, a2, fun _ => by omega, .inr ?_, fun e => List.mem_cons_of_mem _ (a5 e)⟩
          rcases a4 with rfl | ⟨c, hc, e⟩
          · exact ⟨b, by simp, rfl⟩
          · exact ⟨c, by simp [hc], e⟩
    · rename_i hb
      split at h
      · rename_i hz
        injection h with h
        subst h
        refine ⟨Nat.le_refl _, by omega, fun h0 => ?_, .inl rfl, fun e => by omega⟩
        simp [h0] at hz
      · injection h with h
        subst h
        refine ⟨by omega, h2, fun _ => h1, .inr ⟨b, by simp, rfl⟩, fun e => ?_⟩
        have : b = (n, true) := by
          obtain ⟨x, y⟩ := b
          simp at hb
          simp at e
          rw [hb, e]
        rw [← this]; simp

/-- A line with a newline ends. -/
theorem fill_some {width : Nat → Nat → W} {maxWidth : W} {m : Nat} : ∀ (T : List (Nat × Bool)) (lw : W) (pos : Nat), T.getLast? = some (m, true) →
    ∃ j, fill ops width maxWidth lw pos T = some j := by
  intro T
  induction T with
  | nil => intro lw pos h; cases h
  | cons b T ih =>
    intro lw pos h
    rw [fill]
    have hT : b.2 = false → T ≠ [] ∧ T.getLast? = some (m, true) := by
      intro hb
      cases T with
      | nil => simp at h; rw [h] at hb; cases hb
      | cons c T => rw [List.getLast?_cons_cons] at h; exact ⟨by simp, h⟩
    split
    · rename_i hb
      obtain ⟨h1, h2⟩ := hT hb
      split
      · rw [if_neg (by simpa using h1)]; exact ⟨_, rfl⟩
      · split
        · exact ⟨_, rfl⟩
        · exact ih _ _ h2
    · split <;> exact ⟨_, rfl⟩

theorem streamTo_boundary {L : List Char} {fin : Bool} : ∀ b ∈ streamTo [] L fin, CharBoundary (enc L) b.1 := by
  intro b hb
  unfold streamTo at hb
  split at hb
  · cases hb
  · rw [List.mem_append] at hb
    rcases hb with hb | hb
    · cases L with
      | nil => simp [breaksFrom] at hb
      | cons x B =>
        obtain ⟨X, Y, e, h⟩ := innerBreaks_boundary B [x] [cls x] b (by
          rw [breaksFrom] at hb
          rw [show (enc [x]).length = (enc []).length + clen x by simp [enc, clen]]
          exact hb)
        rw [h, show x :: B = X ++ Y from e]
        exact boundary_enc.2 ⟨X, Y, rfl, rfl⟩
    · rw [List.mem_singleton] at hb
      subst hb
      exact boundary_enc.2 ⟨L, [], by simp, rfl⟩

/-- Filling lines is a rule as assumed. -/
theorem fillRule_ok (hl : ops.Laws) (measure : List UInt8 → W) (maxWidth : W) : (fillRule ops measure maxWidth).Ok := by
  have key : ∀ {L : List Char} {i j : Nat}, fillRule ops measure maxWidth (enc L) i = some j →
      i < j ∧ j ≤ (enc L).length ∧ (∃ b ∈ streamTo [] L (endsLine (enc L)), b.1 = j) ∧ (j = (enc L).length → (enc L).getLast? = some newline) := by
    intro L i j h
    rw [fillRule, if_pos ⟨L, rfl⟩, lineStream_eq] at h
    by_cases hi : i ≤ (enc L).length
    · have hc := (streamTo_chain [] L (endsLine (enc L))).filter_le (i := i) (by simp [enc]) hi
      obtain ⟨a1, a2, a3, a4, a5⟩ := fill_bounds hl _ _ hc h
      have a3 := a3 hl.zero
      refine ⟨a3, a2, ?_, fun e => ?_⟩
      · rcases a4 with h | ⟨b, hb, e⟩
        · omega
        · exact ⟨b, (List.mem_filter.1 hb).1, e⟩
      · have h1 := (List.mem_filter.1 (a5 e)).1
        unfold streamTo at h1
        split at h1
        · cases h1
        · rw [List.mem_append] at h1
          rcases h1 with h1 | h1
          · have := (breaksFrom_bound _ h1).2
            simp at this
          · simp only [List.mem_singleton, Prod.mk.injEq] at h1
            have h2 := h1.2.symm
            unfold endsLine at h2
            simpa using h2
    · rw [List.filter_eq_nil_iff.2] at h
      · cases h
      · intro b hb
        have := ((streamTo_chain [] L _).mem hb).2
        simp only [List.nil_append, decide_eq_true_eq] at this ⊢; omega
  refine ⟨?_, ?_, ?_, ?_⟩
  · intro s i j h
    by_cases hu : Utf8 s
    · obtain ⟨L, hL⟩ := hu
      have hL : s = enc L := hL
      subst hL
      exact ⟨(key h).1, (key h).2.1⟩
    · rw [fillRule, if_neg hu] at h
      split at h
      · rename_i hc; injection h with h; omega
      · cases h
  · intro s i h
    by_cases hu : Utf8 s
    · obtain ⟨L, hL⟩ := hu
      have hL : s = enc L := hL
      subst hL
      exact (key h).2.2.2 rfl
    · rw [fillRule, if_neg hu] at h
      split at h
      · rename_i hc; exact hc.1
      · cases h
  · intro s i _ hn hi
    by_cases hu : Utf8 s
    · obtain ⟨L, hL⟩ := hu
      have hL : s = enc L := hL
      subst hL
      rw [fillRule, if_pos ⟨L, rfl⟩, lineStream_eq]
      refine fill_some (m := (enc L).length) _ _ _ ?_
      unfold streamTo
      rw [if_neg (by intro e; rw [e] at hn; cases hn), List.nil_append, List.filter_append, List.filter_cons_of_pos (by simpa using hi), List.filter_nil, List.getLast?_append,
        endsLine, hn]
      rfl
    · rw [fillRule, if_neg hu, if_pos ⟨hn, hi⟩]
      exact ⟨_, rfl⟩
  · intro s i j ⟨L, hL⟩ h
    have hL : s = enc L := hL
    subst hL
    obtain ⟨b, hb, e⟩ := (key h).2.2.1
    rw [← e]
    exact streamTo_boundary b hb

/-- A new context. -/
theorem RewrapCtx.new_ready {r : Rope} (hr : r.Balanced) (measure : List UInt8 → W) (maxWidth : W) {A B : List Char} (ht : r.text = enc (A ++ B)) :
    ∃ ctx, RewrapCtx.new r measure maxWidth (enc A).length = some ctx ∧ Ready r measure maxWidth ctx (enc A).length (streamTo A B (endsLine r.text)) := by
  obtain ⟨c, h1, h2⟩ := new_will hr ht
  have hlen : r.len = r.text.length := by obtain ⟨n, hw⟩ := hr; exact hw.len_eq
  refine ⟨⟨r, c, (enc A).length, measure, [], 0, maxWidth⟩, by rw [RewrapCtx.new, h1]; rfl, rfl, rfl, rfl, [], streamTo A B (endsLine r.text), rfl, rfl, rfl, breaksFrom A B, h2, ?_, ?_⟩
  · show streamTo A B (endsLine r.text) = streamOf r (enc A).length (breaksFrom A B)
    unfold streamTo streamOf
    rw [hlen, ht]
    by_cases hB : B = []
    · subst hB
      rw [if_pos rfl, if_neg (by simp)]
    · have := enc_pos hB
      rw [if_neg hB, if_pos (by rw [enc_append, List.length_append]; omega)]
  · rw [hlen, ht]
    exact streamTo_chain A B _

namespace LinesState

/-- The loop of a task with the breaks that `RewrapCtx` finds. -/
theorem wrapLoopCtx_eq {r : Rope} (hr : r.Balanced) {measure : List UInt8 → W} {maxWidth : W} {A B : List Char} (ht : r.text = enc (A ++ B)) (hj : NoJoiner (A ++ B))
    (hA : A = [] ∨ (enc A).getLast? = some newline) {stop batch : Nat} : ∀ (fuel : Nat) {ctx : RewrapCtx W} {pos lines : Nat} {bd : BreakBuilder} {c : MergedBreaks} {old : Option Nat},
    (enc A).length ≤ pos → pos ≤ r.text.length → Ready r measure maxWidth ctx pos ((streamTo A B (endsLine r.text)).filter fun b => decide (pos < b.1)) →
    wrapLoopCtx ops r r.text stop batch fuel ctx pos lines bd c old = wrapLoop (fillRule ops measure maxWidth) r r.text stop batch fuel pos lines bd c old := by
  intro fuel
  induction fuel with
  | zero => intros; rfl
  | succ fuel ih =>
    intro ctx pos lines bd c old h1 h2 hrdy
    have hlen : r.len = r.text.length := by obtain ⟨n, hw⟩ := hr; exact hw.len_eq
    have hc := hrdy.chain
    have hle := hc.le
    obtain ⟨ctx', e, hnext⟩ := wrapOneLoop_spec hr ops _ (r.text.length + 1) ops.zero hrdy (by omega)
    have hrule := fill_rule (ops := ops) (measure := measure) (maxWidth := maxWidth) hj hA h1 (by rw [← ht]; exact h2)
    rw [← ht] at hrule
    rw [hrule] at e hnext
    rw [wrapLoopCtx, wrapLoop, RewrapCtx.wrapOneLine, e]
    simp only [Option.bind_eq_bind, Option.bind_some]
    cases hw : wrapOneLine (fillRule ops measure maxWidth) r.text pos with
    | none => rfl
    | some j =>
      have hrdy' := hnext j hw
      have hge := fill_ge _ _ hc (by rw [hrule]; exact hw)
      have hjl : j ≤ r.text.length := by have := hrdy'.chain.le; omega
      rw [List.filter_filter] at hrdy'
      have hff : (fun b : Nat × Bool => decide (j < b.1) && decide (pos < b.1)) = fun b => decide (j < b.1) := by
        funext b
        by_cases h : j < b.1
        · have : pos < b.1 := by omega
          simp [h, this]
        · simp [h]
      rw [hff] at hrdy'
      simp only
      congr 1; funext x
      congr 1; funext y
      congr 1; funext z
      split
      · rfl
      · exact ih (by omega) hjl hrdy'

/-- A task with the breaks that `RewrapCtx` finds. -/
theorem doWrapTaskCtx_eq {r : Rope} {measure : List UInt8 → W} {maxWidth : W} {cs : List Char} (ht : r.text = enc cs) (hj : NoJoiner cs) {rule : WrapRule} {L : LinesState}
    (hi : L.Inv rule r) (hwr : L.wraps = true) (hw : L.work ≠ []) (vis vis' : Nat) :
    L.doWrapTaskCtx ops measure maxWidth r r.text vis vis' = L.doWrapTask (fillRule ops measure maxWidth) r r.text vis vis' := by
  have hr := hi.agree.text
  obtain ⟨t, c, e1, t1, t2, t3, -⟩ := pickTask_spec hi hwr hw vis
  have hle : t.start ≤ r.text.length := by omega
  -- the start in characters
  have hsplit : ∃ A B, cs = A ++ B ∧ (enc A).length = t.start ∧ (A = [] ∨ (enc A).getLast? = some newline) := by
    have hst : r.text.take t.start = [] ∨ (r.text.take t.start).getLast? = some newline := by
      rcases t3 with h | ⟨h, h'⟩
      · left; rw [h]; rfl
      · right
        rw [List.getLast?_eq_getElem?, List.length_take, List.getElem?_take_of_lt (by omega), Nat.min_eq_left hle]; exact h'
    obtain ⟨⟨A, hA⟩, ⟨B, hB⟩⟩ := boundary_after_lines (A := r.text.take t.start) (C := r.text.drop t.start) ⟨cs, ht⟩ (List.take_append_drop _ _).symm hst
    have hA : r.text.take t.start = enc A := hA
    have hB : r.text.drop t.start = enc B := hB
    refine ⟨A, B, enc_inj ?_, ?_, ?_⟩
    · rw [enc_append, ← hA, ← hB, List.take_append_drop, ht]
    · rw [← hA, List.length_take]; omega
    · rw [hA] at hst
      rcases hst with h | h
      · left
        cases A with
        | nil => rfl
        | cons a b => have := enc_pos (a := a :: b) (by simp); rw [h] at this; simp at this
      · exact .inr h
  obtain ⟨A, B, rfl, hlenA, hA⟩ := hsplit
  obtain ⟨ctx, hctx, hrdy⟩ := RewrapCtx.new_ready hr measure maxWidth ht
  rw [hlenA] at hctx hrdy
  have hself : (streamTo A B (endsLine r.text)).filter (fun b => decide (t.start < b.1)) = streamTo A B (endsLine r.text) := by
    rw [← hlenA]; exact (streamTo_chain A B _).filter_self
  unfold doWrapTaskCtx doWrapTask
  simp only [e1, Option.bind_eq_bind, Option.bind_some, hwr, Bool.true_eq_false, if_false, hctx]
  congr 1; funext x
  congr 1; funext y
  rw [wrapLoopCtx_eq hr ht hj hA _ (by omega) hle (by rw [hself]; exact hrdy)]

end LinesState

end Xi
