import Verif.Core.LineNumbers
import Verif.Core.LineCacheUpdate

/-! # What an update does to the line numbers of the front end -/

namespace Xi

variable {T S : Type} {real : T → Bool} {cur : List (ScreenLine T S)} {m : Missing} {gap : Nat}

/-! ## Without the numbers it is the update of C57 -/

theorem renumber_plain {α : Type} : ∀ (ls : Numbered α) (n : Nat), withoutNumbers (renumber gap n ls) = withoutNumbers ls
  | [], _ => rfl
  | none :: r, n => by simpa [renumber, withoutNumbers] using renumber_plain r (n + gap)
  | some (l, none) :: r, n => by simpa [renumber, withoutNumbers] using renumber_plain r n
  | some (l, some _) :: r, n => by simpa [renumber, withoutNumbers] using renumber_plain r (n + 1)

theorem copyNumbers_plain {α : Type} (ls : Numbered α) (n : Nat) : withoutNumbers (copyNumbers gap n ls) = withoutNumbers ls := by
  unfold copyNumbers
  split <;> exact renumber_plain _ _

theorem withoutNumbers_append {α : Type} (a b : Numbered α) : withoutNumbers (a ++ b) = withoutNumbers a ++ withoutNumbers b := by simp [withoutNumbers]

theorem withoutNumbers_get {α : Type} (ls : Numbered α) (i : Nat) : (withoutNumbers ls)[i]? = ls[i]?.map fun l => l.map Prod.fst := by
  simp [withoutNumbers]

theorem applyNumbered_plain (old : Numbered (ScreenLine T S)) : ∀ (ops : List (NumOp T S)) (ix : Nat),
    (applyNumbered m gap old ops ix).map withoutNumbers = applyUpdate m (withoutNumbers old) (ops.map NumOp.plain) ix
  | [], _ => rfl
  | .invalidate n :: ops, ix => by
    rw [List.map_cons, NumOp.plain, applyUpdate, applyNumbered, ← applyNumbered_plain old ops ix, Option.map_map, Option.map_map]
    congr 1
    funext x
    simp [withoutNumbers]
  | .skip n :: ops, ix => by
    rw [List.map_cons, NumOp.plain, applyUpdate, applyNumbered, ← applyNumbered_plain old ops (ix + n)]
  | .copy n ln :: ops, ix => by
    rw [List.map_cons, NumOp.plain, applyUpdate, applyNumbered]
    have : (withoutNumbers old).length = old.length := by simp [withoutNumbers]
    rw [this]
    split
    · rw [← applyNumbered_plain old ops (ix + n), Option.map_map, Option.map_map]
      congr 1
      funext x
      simp only [Function.comp, withoutNumbers_append, copyNumbers_plain]
      simp [withoutNumbers]
    · rfl
  | .insert lines :: ops, ix => by
    rw [List.map_cons, NumOp.plain, applyUpdate, applyNumbered, ← applyNumbered_plain old ops ix, Option.map_map, Option.map_map]
    congr 1
    funext x
    simp [withoutNumbers]
  | .update lines ln :: ops, ix => by
    rw [List.map_cons, NumOp.plain, applyUpdate, applyNumbered]
    have : (withoutNumbers old).length = old.length := by simp [withoutNumbers]
    rw [this, List.length_map]
    split
    · rw [← applyNumbered_plain old ops (ix + lines.length), Option.map_map, Option.map_map]
      congr 1
      funext x
      simp only [Function.comp, withoutNumbers_append]
      congr 1
      simp only [withoutNumbers, List.map_zipWith, ← List.map_drop, ← List.map_take, List.zipWith_map]
      congr 1
      funext l c
      cases l <;> rfl
    · rfl

theorem lineNums_length (start n : Nat) : (lineNums real cur start n).length = n := by simp [lineNums]

theorem copyOpsNum_plain {seg : PlanSegment} (h : seg.ours + seg.n ≤ cur.length) (oldLine : Nat) :
    (copyOpsNum real cur seg oldLine).map NumOp.plain = copyOps cur seg oldLine := by
  unfold copyOpsNum copyOps
  rw [List.map_append]
  congr 1
  · split <;> rfl
  · rw [List.map_cons, List.map_nil]
    congr 1
    split
    · rfl
    · rw [NumOp.plain, List.map_fst_zip]
      rw [lineNums_length]
      simp [encodeCursors]
      omega

theorem updateLoopNum_plain : ∀ (segs : List PlanSegment) (o : Nat) (b : List ShadowSpan) (ops : List (NumOp T S)) (ln : Nat), SegOrder o segs →
    o + (segLines segs).length ≤ cur.length →
    (updateLoopNum real cur segs b ops ln).map (fun x => (x.1, x.2.map NumOp.plain)) = updateLoop cur segs b (ops.map NumOp.plain) ln
  | [], _, b, ops, ln, _, _ => rfl
  | g :: segs, o, b, ops, ln, h, hl => by
    obtain ⟨h1, h2⟩ := h
    rw [segLines_cons, List.length_append, List.length_map, spanLines_length] at hl
    have ih := fun b ops ln => updateLoopNum_plain segs (o + g.n) b ops ln h2 (by omega)
    rw [updateLoopNum, updateLoop]
    split
    · rw [ih]; simp [NumOp.plain]
    · split
      · split
        · rfl
        · rw [ih, List.map_append, copyOpsNum_plain (by rw [h1]; omega)]
      · split
        · rw [ih]; simp [NumOp.plain]
        · split
          · rfl
          · rename_i hn
            rw [ih, List.map_append, List.map_cons, List.map_nil, NumOp.plain, List.map_fst_zip]
            rw [lineNums_length]
            omega

theorem sendNumbered_plain {s : LineCacheShadow} {plan : RenderPlan} (h : s.lines.length = cur.length) :
    (sendNumbered real cur s plan).map (fun x => (x.1, x.2.map NumOp.plain)) = sendUpdate cur s plan := by
  obtain ⟨segs, q1, q2, q3, -⟩ := segments_spec s plan
  have hE : (segLines segs).length ≤ cur.length := by rw [q3, List.length_zip]; omega
  have := updateLoopNum_plain (real := real) (cur := cur) segs 0 [] [] 0 q2 (by omega)
  unfold sendNumbered sendUpdate
  rw [q1]
  cases hn : s.needsRender plan with
  | none => rfl
  | some b =>
    cases b with
    | false => rfl
    | true =>
      simp only [Option.bind_eq_bind, Option.bind_some, if_true, Option.pure_def]
      rw [List.map_nil] at this
      rw [← this]
      cases updateLoopNum real cur segs [] [] 0 with
      | none => rfl
      | some x => rfl

/-! ## The numbers -/

theorem rightNumber_eq {i : Nat} {c : ScreenLine T S} (h : cur[i]? = some c) :
    rightNumber real cur i = if real c.text then some ((cur.take i).countP (fun l => real l.text) + 1) else none := by
  simp [rightNumber, h]

theorem countP_take_succ {i : Nat} {c : ScreenLine T S} (h : cur[i]? = some c) :
    (cur.take (i + 1)).countP (fun l => real l.text) = (cur.take i).countP (fun l => real l.text) + if real c.text then 1 else 0 := by
  rw [List.take_add_one, h, List.countP_append]
  simp [List.countP_cons]

/-- The first line of a view begins a logical line. -/
def FirstReal (real : T → Bool) (cur : List (ScreenLine T S)) : Prop := ∀ c, cur[0]? = some c → real c.text = true

theorem FirstReal.pos (h : FirstReal real cur) {i : Nat} (hi : i < cur.length) : 0 < (cur.take (i + 1)).countP (fun l => real l.text) := by
  rw [List.countP_pos_iff]
  refine ⟨cur[0]'(by omega), ?_, h _ (List.getElem?_eq_getElem (by omega))⟩
  rw [List.mem_take_iff_getElem]
  exact ⟨0, by omega, rfl⟩

theorem lineNum_right (h : FirstReal real cur) {i : Nat} (hi : i < cur.length) : lineNum real cur i = rightNumber real cur i := by
  have hc : cur[i]? = some cur[i] := List.getElem?_eq_getElem hi
  have h1 := h.pos hi
  have h2 := countP_take_succ (real := real) hc
  rw [rightNumber_eq hc]
  unfold lineNum logicalAt
  rw [hc]
  simp only [Option.any_some]
  split
  · rename_i hr
    rw [if_pos hr] at h2
    congr 1
    omega
  · rfl

/-- Lines that are all known, of which the same have a number as in the view. -/
def SameKind (real : T → Bool) (cur : List (ScreenLine T S)) (o : Nat) (ls : Numbered α) : Prop :=
  ∀ (j : Nat) (x : Option (α × Option Nat)), ls[j]? = some x → ∃ l n c, x = some (l, n) ∧ cur[o + j]? = some c ∧ n.isSome = real c.text

theorem renumber_right {α : Type} : ∀ (ls : Numbered α) (o : Nat), SameKind real cur o ls →
    ∀ (j : Nat) (l : α) (n : Option Nat), (renumber gap ((cur.take o).countP (fun l => real l.text) + 1) ls)[j]? = some (some (l, n)) →
      n = rightNumber real cur (o + j)
  | [], _, _, j, l, n, hj => by simp [renumber] at hj
  | x :: ls, o, h, j, l, n, hj => by
    obtain ⟨l0, n0, c, rfl, hc, hn⟩ := h 0 x (by simp)
    rw [Nat.add_zero] at hc
    have hs := countP_take_succ (real := real) hc
    have h' : SameKind real cur (o + 1) ls := by
      intro j x hx
      obtain ⟨l, n, c, e1, e2, e3⟩ := h (j + 1) x (by simpa using hx)
      exact ⟨l, n, c, e1, by rw [← e2]; congr 1; omega, e3⟩
    have ih := renumber_right ls (o + 1) h'
    cases n0 with
    | none =>
      have hr : real c.text = false := by simpa using hn.symm
      rw [hr] at hs
      simp only [Bool.false_eq_true, if_false, Nat.add_zero] at hs
      cases j with
      | zero =>
        simp only [renumber, List.getElem?_cons_zero, Option.some.injEq, Prod.mk.injEq] at hj
        rw [Nat.add_zero, rightNumber_eq hc, hr, ← hj.2]
        rfl
      | succ j =>
        simp only [renumber, List.getElem?_cons_succ] at hj
        rw [show o + (j + 1) = o + 1 + j by omega]
        exact ih j l n (by rw [hs]; exact hj)
    | some k =>
      have hr : real c.text = true := by simpa using hn.symm
      rw [hr] at hs
      simp only [if_true] at hs
      cases j with
      | zero =>
        simp only [renumber, List.getElem?_cons_zero, Option.some.injEq, Prod.mk.injEq] at hj
        rw [Nat.add_zero, rightNumber_eq hc, hr, ← hj.2]
        rfl
      | succ j =>
        simp only [renumber, List.getElem?_cons_succ] at hj
        rw [show o + (j + 1) = o + 1 + j by omega]
        exact ih j l n (by rw [hs]; exact hj)

theorem copyNumbers_right {α : Type} (hf : FirstReal real cur) (ls : Numbered α) (o : Nat) (h : SameKind real cur o ls)
    (j : Nat) (l : α) (n : Option Nat) (hj : (copyNumbers gap (logicalAt real cur o + 1) ls)[j]? = some (some (l, n))) :
    n = rightNumber real cur (o + j) := by
  refine renumber_right (gap := gap) ls o h j l n ?_
  rw [← hj]
  cases ls with
  | nil => simp [copyNumbers, renumber]
  | cons x ls =>
    obtain ⟨l0, n0, c, rfl, hc, hn⟩ := h 0 x (by simp)
    rw [Nat.add_zero] at hc
    have hs := countP_take_succ (real := real) hc
    have hp := hf.pos (List.getElem?_eq_some_iff.1 hc).1
    cases n0 with
    | none =>
      have hr : real c.text = false := by simpa using hn.symm
      rw [hr] at hs
      simp only [Bool.false_eq_true, if_false, Nat.add_zero] at hs
      rw [copyNumbers]
      congr 3
      unfold logicalAt
      omega
    | some k =>
      have hr : real c.text = true := by simpa using hn.symm
      rw [hr] at hs
      simp only [if_true] at hs
      rw [copyNumbers]
      · congr 3
        unfold logicalAt
        omega
      · intro l r e
        cases e

/-- Lines that begin at line `o` of the view have the right numbers. -/
def RightFrom (real : T → Bool) (cur : List (ScreenLine T S)) (o : Nat) (ls : Numbered (ScreenLine T S)) : Prop :=
  ∀ (i : Nat) (L : ScreenLine T S) (n : Option Nat), ls[i]? = some (some (L, n)) → n = rightNumber real cur (o + i)

theorem RightFrom.append {o k : Nat} {a b : Numbered (ScreenLine T S)} (ha : RightFrom real cur o a) (hb : RightFrom real cur (o + k) b) (hk : a.length = k) :
    RightFrom real cur o (a ++ b) := by
  intro i L n hi
  by_cases h : i < a.length
  · rw [List.getElem?_append_left h] at hi
    exact ha i L n hi
  · rw [List.getElem?_append_right (by omega)] at hi
    have := hb _ L n hi
    rwa [show o + k + (i - a.length) = o + i by omega] at this

theorem rightFrom_none (o k : Nat) : RightFrom real cur o (List.replicate k none) := by
  intro i L n hi
  rw [List.getElem?_replicate] at hi
  split at hi <;> simp at hi

theorem renumber_length {α : Type} : ∀ (ls : Numbered α) (n : Nat), (renumber gap n ls).length = ls.length
  | [], _ => rfl
  | none :: r, n => by simp [renumber, renumber_length r]
  | some (l, none) :: r, n => by simp [renumber, renumber_length r]
  | some (l, some _) :: r, n => by simp [renumber, renumber_length r]

theorem copyNumbers_length {α : Type} (ls : Numbered α) (n : Nat) : (copyNumbers gap n ls).length = ls.length := by
  unfold copyNumbers
  split <;> exact renumber_length _ _

theorem lineNums_get {start n i : Nat} (h : i < n) : (lineNums real cur start n)[i]? = some (lineNum real cur (start + i)) := by
  simp [lineNums, h]

variable (real cur) in
theorem updateLoopNum_right (hf : FirstReal real cur) (client : Numbered (ScreenLine T S)) : ∀ (segs : List PlanSegment) (o : Nat) (b : List ShadowSpan)
    (ops : List (NumOp T S)) (ln : Nat), SegOrder o segs → o + (segLines segs).length ≤ cur.length →
    (∀ (i k : Nat) (v : Validity) (t : RenderTactic), (segLines segs)[i]? = some (some (k, v), t) → v.text = true →
      ∃ L n c, client[k]? = some (some (L, n)) ∧ cur[o + i]? = some c ∧ n.isSome = real c.text) →
    ∀ b' r, updateLoopNum real cur segs b ops ln = some (b', r) → ∃ ops', r = ops ++ ops' ∧
      ∀ res, applyNumbered m gap client ops' ln = some res → RightFrom real cur o res
  | [], o, b, ops, ln, _, _, _, b', r, hr => by
    simp only [updateLoopNum, Option.some.injEq, Prod.mk.injEq] at hr
    refine ⟨[], by simp [hr.2], ?_⟩
    intro res h i L n hi
    simp only [applyNumbered, Option.some.injEq] at h
    simp [← h] at hi
  | g :: segs, o, b, ops, ln, h, hl, hk, b', r, hr => by
    obtain ⟨h1, h2⟩ := h
    rw [segLines_cons, List.length_append, List.length_map, spanLines_length] at hl
    have hk' : ∀ (i k : Nat) (v : Validity) (t : RenderTactic), (segLines segs)[i]? = some (some (k, v), t) → v.text = true →
        ∃ L n c, client[k]? = some (some (L, n)) ∧ cur[o + g.n + i]? = some c ∧ n.isSome = real c.text := by
      intro i k v t hi hv
      have := hk (g.n + i) k v t (by
        rw [segLines_cons, List.getElem?_append_right (by simp), List.length_map, spanLines_length, Nat.add_sub_cancel_left]
        exact hi) hv
      rwa [← Nat.add_assoc] at this
    have ih := fun b ops ln => updateLoopNum_right hf client segs (o + g.n) b ops ln h2 (by omega) hk' b' r
    have inv : ∀ ops' res, applyNumbered m gap client (.invalidate g.n :: ops') ln = some res →
        (∀ res, applyNumbered m gap client ops' ln = some res → RightFrom real cur (o + g.n) res) → RightFrom real cur o res := by
      intro ops' res hres hops
      rw [applyNumbered, Option.map_eq_some_iff] at hres
      obtain ⟨res', e1, rfl⟩ := hres
      exact (rightFrom_none o g.n).append (hops res' e1) (by simp)
    rw [updateLoopNum] at hr
    split at hr
    · obtain ⟨ops', e1, e2⟩ := ih _ _ _ hr
      exact ⟨.invalidate g.n :: ops', by rw [e1]; simp, fun res hres => inv ops' res hres e2⟩
    · split at hr
      · rename_i ht
        split at hr
        · cases hr
        · rename_i hge
          obtain ⟨ops', e1, e2⟩ := ih _ _ _ hr
          refine ⟨copyOpsNum real cur g ln ++ ops', by rw [e1]; simp, ?_⟩
          have hop : ∀ res, applyNumbered m gap client ((if g.validity.cursor then .copy g.n (logicalAt real cur g.ours + 1)
              else .update ((encodeCursors cur g.ours g.n).zip (lineNums real cur g.ours g.n))
                (if logicalAt real cur g.ours = 0 then none else some (logicalAt real cur g.ours + 1))) :: ops') g.theirs = some res →
              RightFrom real cur o res := by
            intro res hres
            split at hres
            · rw [applyNumbered] at hres
              split at hres
              · rename_i hlen
                rw [Option.map_eq_some_iff] at hres
                obtain ⟨res', e3, rfl⟩ := hres
                refine RightFrom.append ?_ (e2 res' e3) (by rw [copyNumbers_length]; simp; omega)
                intro i L n hi
                rw [h1] at hi
                refine copyNumbers_right hf _ o ?_ i L n hi
                intro j x hx
                have hj : j < g.n := by
                  have := (List.getElem?_eq_some_iff.1 hx).1
                  simp at this
                  omega
                rw [List.getElem?_take, if_pos hj, List.getElem?_drop] at hx
                have hv : g.validity ≠ .invalid := by
                  intro hv
                  rw [hv] at ht
                  exact absurd ht (by decide)
                obtain ⟨L, n, c, a1, a2, a3⟩ := hk j (g.theirs + j) g.validity g.tactic (by
                  rw [segLines_cons, List.getElem?_append_left (by simpa using hj), List.getElem?_map, spanLines_get hj, entry, if_neg hv]
                  rfl) (by
                  simp only [Bool.and_eq_true] at ht
                  exact ht.1)
                rw [a1] at hx
                exact ⟨L, n, c, (Option.some.inj hx).symm, a2, a3⟩
              · cases hres
            · rw [applyNumbered] at hres
              have hlen : ((encodeCursors cur g.ours g.n).zip (lineNums real cur g.ours g.n)).length = g.n := by
                rw [List.length_zip, lineNums_length]
                simp [encodeCursors]
                omega
              rw [hlen] at hres
              split at hres
              · rename_i hlen'
                rw [Option.map_eq_some_iff] at hres
                obtain ⟨res', e3, rfl⟩ := hres
                refine RightFrom.append ?_ (e2 res' e3) (by rw [List.length_zipWith, hlen]; simp; omega)
                intro i L n hi
                rw [List.getElem?_zipWith] at hi
                have hj : i < g.n := by
                  apply Classical.byContradiction
                  intro hj
                  rw [List.getElem?_eq_none (by simp; omega)] at hi
                  simp at hi
                rw [List.getElem?_take, if_pos hj, List.getElem?_drop, List.getElem?_eq_getElem (by omega)] at hi
                have hz : ((encodeCursors cur g.ours g.n).zip (lineNums real cur g.ours g.n))[i]? =
                    some ((encodeCursors cur g.ours g.n)[i]'(by simp [encodeCursors]; omega), lineNum real cur (g.ours + i)) := by
                  rw [List.getElem?_zip_eq_some]
                  exact ⟨List.getElem?_eq_getElem _, lineNums_get hj⟩
                rw [hz] at hi
                simp only [Option.some.injEq, Option.map_eq_some_iff, Prod.mk.injEq] at hi
                obtain ⟨_, _, _, rfl⟩ := hi
                rw [h1]
                exact lineNum_right hf (by omega)
              · cases hres
          intro res hres
          unfold copyOpsNum at hres
          split at hres
          · simp only [List.cons_append, List.nil_append] at hres
            rw [applyNumbered, show ln + (g.theirs - ln) = g.theirs by omega] at hres
            exact hop res hres
          · simp only [List.nil_append, List.cons_append] at hres
            rw [show ln = g.theirs by omega] at hres
            exact hop res hres
      · split at hr
        · obtain ⟨ops', e1, e2⟩ := ih _ _ _ hr
          exact ⟨.invalidate g.n :: ops', by rw [e1]; simp, fun res hres => inv ops' res hres e2⟩
        · split at hr
          · cases hr
          · rename_i hn
            obtain ⟨ops', e1, e2⟩ := ih _ _ _ hr
            refine ⟨.insert ((encodeLines cur g.ours g.n).zip (lineNums real cur g.ours g.n)) :: ops', by rw [e1]; simp, ?_⟩
            intro res hres
            rw [applyNumbered, Option.map_eq_some_iff] at hres
            obtain ⟨res', e3, rfl⟩ := hres
            refine RightFrom.append ?_ (e2 res' e3) (by
              rw [List.length_map, List.length_zip, lineNums_length]
              omega)
            intro i L n hi
            rw [List.getElem?_map, Option.map_eq_some_iff] at hi
            obtain ⟨⟨x, y⟩, hz, hi⟩ := hi
            rw [List.getElem?_zip_eq_some] at hz
            simp only [Option.some.injEq, Prod.mk.injEq] at hi
            have hj : i < g.n := by
              have := (List.getElem?_eq_some_iff.1 hz.2).1
              rw [lineNums_length] at this
              exact this
            rw [lineNums_get hj] at hz
            have hy : lineNum real cur (g.ours + i) = y := Option.some.inj hz.2
            rw [← hi.2]
            show y = _
            rw [← hy, h1]
            exact lineNum_right hf (by omega)

end Xi
