import Verif.Core.LineNumbersLemmas
import Verif.Props.LineCache
import Verif.Props.VisualLines

/-!
# C102: the line numbers the front end shows
-/

namespace Xi

section

variable {T S : Type} {real : T → Bool} {m : Missing} {gap : Nat}

/-- A view: the shadow, the lines it should show, and the lines the front end has with their
numbers. -/
structure NumState (T S : Type) where
  shadow : LineCacheShadow
  cur : List (ScreenLine T S)
  client : Numbered (ScreenLine T S)

/-- The view without the numbers. -/
def NumState.plain (s : NumState T S) : ViewState T S := ⟨s.shadow, s.cur, withoutNumbers s.client⟩

/-- What happens to a view in the core: the steps of `ViewStep` that send nothing. -/
inductive CoreStep : LineCacheShadow → List (ScreenLine T S) → LineCacheShadow → List (ScreenLine T S) → Prop
  | edit (sh : LineCacheShadow) (cur : List (ScreenLine T S)) (start stop : Nat) (new : List (ScreenLine T S)) (h : start ≤ stop) (hs : stop ≤ cur.length)
      (hn : 0 < cur.length + new.length - (stop - start)) :
      CoreStep sh cur (sh.edit start stop new.length) (cur.take start ++ new ++ cur.drop stop)
  | invalidate (sh : LineCacheShadow) (cur : List (ScreenLine T S)) (start stop : Nat) (invalid : Validity) (cur' : List (ScreenLine T S)) (h : start ≤ stop)
      (hl : cur'.length = cur.length)
      (hin : ∀ (i : Nat) (a b : ScreenLine T S), start ≤ i → i < stop → cur[i]? = some a → cur'[i]? = some b → ChangedIn invalid a b)
      (hout : ∀ i : Nat, i < start ∨ stop ≤ i → cur'[i]? = cur[i]?) :
      CoreStep sh cur (sh.partialInvalidate start stop invalid) cur'
  | setDirty (sh : LineCacheShadow) (cur cur' : List (ScreenLine T S)) (h : 0 < cur'.length) : CoreStep sh cur (.allDirty cur'.length) cur'

/-- A rendering, or the answer to a request for lines. -/
def NumUpdate (m : Missing) (gap : Nat) (real : T → Bool) (s s' : NumState T S) (firstLine height : Nat) (request : Option (Nat × Nat)) : Prop :=
  ∃ plan ops, planFor s.cur.length firstLine height request = some plan ∧ sendNumbered real s.cur s.shadow plan = some (s'.shadow, ops) ∧
    applyNumbered m gap s.client ops 0 = some s'.client ∧ s'.cur = s.cur

/-- The states of a view.  The first line of a text always begins a logical line. -/
inductive NumReachable (m : Missing) (gap : Nat) (real : T → Bool) : NumState T S → Prop
  | init (cur : List (ScreenLine T S)) (h : 0 < cur.length) (hf : FirstReal real cur) : NumReachable m gap real ⟨.allDirty cur.length, cur, []⟩
  | core (s : NumState T S) (sh' : LineCacheShadow) (cur' : List (ScreenLine T S)) (h : NumReachable m gap real s)
      (hs : CoreStep s.shadow s.cur sh' cur') (hf : FirstReal real cur') : NumReachable m gap real ⟨sh', cur', s.client⟩
  | update (s s' : NumState T S) (firstLine height : Nat) (request : Option (Nat × Nat)) (h : NumReachable m gap real s)
      (hr : ∀ a b, request = some (a, b) → a < b) (hu : NumUpdate m gap real s s' firstLine height request) : NumReachable m gap real s'

/-! ## What holds of every state -/

/-- The lines of the front end have a number if they should. -/
def Kinds (real : T → Bool) (client : Numbered (ScreenLine T S)) : Prop :=
  ∀ (i : Nat) (L : ScreenLine T S) (n : Option Nat), client[i]? = some (some (L, n)) → n.isSome = real L.text

structure NumState.Good (real : T → Bool) (s : NumState T S) : Prop where
  plain : s.plain.Good
  kinds : Kinds real s.client
  first : FirstReal real s.cur

theorem CoreStep.good {sh sh' : LineCacheShadow} {cur cur' : List (ScreenLine T S)} {client : List (Option (ScreenLine T S))} (h : CoreStep sh cur sh' cur')
    (hg : ViewState.Good ⟨sh, cur, client⟩) : ViewState.Good ⟨sh', cur', client⟩ := by
  cases h with
  | edit start stop new h hs hn => exact good_edit hg new h hs hn
  | invalidate start stop invalid cur' h hl hin hout => exact good_invalidate hg invalid _ h hl hin hout
  | setDirty cur' h => exact good_allDirty h _

theorem planFor_spec {total : Nat} (ht : 0 < total) (firstLine height : Nat) (request : Option (Nat × Nat)) (hr : ∀ a b, request = some (a, b) → a < b) :
    ∃ plan, planFor total firstLine height request = some plan ∧ total ≤ (planLines plan).length ∧ ∀ p ∈ plan, 0 < p.1 := by
  obtain ⟨plan, p1, p2, p3, p4⟩ := RenderPlan.create_spec total firstLine height
  cases request with
  | none => exact ⟨plan, by simp [planFor, p1], by omega, p3 ht⟩
  | some ab =>
    obtain ⟨a, b⟩ := ab
    have hab := hr a b rfl
    obtain ⟨plan', r1, r2, r3⟩ := plan.requestLines_spec (Nat.le_of_lt hab)
    exact ⟨plan', by simp [planFor, p1, r1], by rw [r2]; simp; omega, r3 (p3 ht) hab⟩

theorem renumber_kind {α : Type} : ∀ (ls : Numbered α) (k i : Nat) (l : α) (n : Option Nat), (renumber gap k ls)[i]? = some (some (l, n)) →
    ∃ n', ls[i]? = some (some (l, n')) ∧ n.isSome = n'.isSome
  | [], _, _, _, _, h => by simp [renumber] at h
  | none :: r, k, i, l, n, h => by
    cases i with
    | zero => simp [renumber] at h
    | succ i =>
      simp only [renumber, List.getElem?_cons_succ] at h ⊢
      exact renumber_kind r _ i l n h
  | some (l0, none) :: r, k, i, l, n, h => by
    cases i with
    | zero =>
      simp only [renumber, List.getElem?_cons_zero, Option.some.injEq, Prod.mk.injEq] at h ⊢
      exact ⟨none, ⟨h.1, rfl⟩, by rw [← h.2]⟩
    | succ i =>
      simp only [renumber, List.getElem?_cons_succ] at h ⊢
      exact renumber_kind r _ i l n h
  | some (l0, some k0) :: r, k, i, l, n, h => by
    cases i with
    | zero =>
      simp only [renumber, List.getElem?_cons_zero, Option.some.injEq, Prod.mk.injEq] at h ⊢
      exact ⟨some k0, ⟨h.1, rfl⟩, by rw [← h.2]; rfl⟩
    | succ i =>
      simp only [renumber, List.getElem?_cons_succ] at h ⊢
      exact renumber_kind r _ i l n h

theorem copyNumbers_kind {α : Type} (ls : Numbered α) (k i : Nat) (l : α) (n : Option Nat) (h : (copyNumbers gap k ls)[i]? = some (some (l, n))) :
    ∃ n', ls[i]? = some (some (l, n')) ∧ n.isSome = n'.isSome := by
  unfold copyNumbers at h
  split at h <;> exact renumber_kind _ _ _ _ _ h

/-- An invalid line stands for one number. -/
theorem renumber_all {α : Type} : ∀ (ls : Numbered α) (k : Nat), (∀ (i : Nat) (l : α) (n : Option Nat), ls[i]? = some (some (l, n)) → n.isSome = true) →
    ∀ (i : Nat) (l : α) (n : Option Nat), (renumber 1 k ls)[i]? = some (some (l, n)) → n = some (k + i)
  | [], _, _, _, _, _, h => by simp [renumber] at h
  | x :: r, k, ha, i, l, n, h => by
    have ih := renumber_all r (k + 1) fun i l n hi => ha (i + 1) l n (by simpa using hi)
    have go : ∀ y, y :: renumber 1 (k + 1) r = renumber 1 k (x :: r) → (∀ l n, y = some (l, n) → n = some k) → n = some (k + i) := by
      intro y e hy
      rw [← e] at h
      cases i with
      | zero =>
        simp only [List.getElem?_cons_zero, Option.some.injEq] at h
        exact hy l n h
      | succ i =>
        simp only [List.getElem?_cons_succ] at h
        rw [ih i l n h]
        congr 1
        omega
    match x, ha with
    | none, _ => exact go none (by simp [renumber]) (by simp)
    | some (l0, none), ha => exact absurd (ha 0 l0 none (by simp)) (by simp)
    | some (l0, some k0), _ => exact go (some (l0, some k)) (by simp [renumber]) (fun l n e => by
        simp only [Option.some.injEq, Prod.mk.injEq] at e
        exact e.2.symm)

theorem rightNumber_isSome {cur : List (ScreenLine T S)} {i : Nat} {c : ScreenLine T S} (h : cur[i]? = some c) :
    (rightNumber real cur i).isSome = real c.text := by
  rw [rightNumber_eq h]
  split <;> simp_all

/-- An update whose plan fits: it can be applied, and the numbers are right unless nothing was
rendered and the front end does not know all lines. -/
theorem sendNumbered_right {s : NumState T S} (hg : s.Good real) {plan : RenderPlan} (hp : s.cur.length ≤ (planLines plan).length)
    (hpos : ∀ p ∈ plan, 0 < p.1) : ∃ sh' ops client', sendNumbered real s.cur s.shadow plan = some (sh', ops) ∧
      applyNumbered m gap s.client ops 0 = some client' ∧ NumState.Good real ⟨sh', s.cur, client'⟩ ∧
      Shown m s.cur (withoutNumbers client') (fun i => (planLines plan)[i]? = some .render) ∧
      (s.shadow.needsRender plan = some true ∨ (∀ l ∈ s.client, l ≠ none) ∨ gap = 1 ∧ (∀ c ∈ s.cur, real c.text = true) → NumbersRight real s.cur client') := by
  obtain ⟨sh', pops, pclient, q1, q2, q3, q4, q5⟩ := good_sendUpdate (m := m) hg.plain hp hpos
  have q1 : sendUpdate s.cur s.shadow plan = some (sh', pops) := q1
  have q2 : applyUpdate m (withoutNumbers s.client) pops 0 = some pclient := q2
  have hlen : s.shadow.lines.length = s.cur.length := hg.plain.len
  have hpl := sendNumbered_plain (real := real) (plan := plan) hlen
  rw [q1, Option.map_eq_some_iff] at hpl
  obtain ⟨⟨sh2, ops⟩, e1, e2⟩ := hpl
  simp only [Prod.mk.injEq] at e2
  obtain ⟨rfl, rfl⟩ := e2
  have hap := applyNumbered_plain (m := m) (gap := gap) s.client ops 0
  rw [q2, Option.map_eq_some_iff] at hap
  obtain ⟨client', e3, rfl⟩ := hap
  refine ⟨sh2, ops, client', e1, e3, ?_⟩
  -- what the front end has of a valid line
  have hagree : ∀ (i k : Nat) (v : Validity), s.shadow.lines[i]? = some (some (k, v)) → v.text = true →
      ∃ L n c, s.client[k]? = some (some (L, n)) ∧ s.cur[i]? = some c ∧ n.isSome = real c.text := by
    intro i k v hi hv
    obtain ⟨L, c, a1, a2, a3, -⟩ := hg.plain.agree i k v hi
    have a1 : (withoutNumbers s.client)[k]? = some (some L) := a1
    rw [withoutNumbers_get, Option.map_eq_some_iff] at a1
    obtain ⟨x, hx, hxL⟩ := a1
    rw [Option.map_eq_some_iff] at hxL
    obtain ⟨⟨L', n⟩, rfl, rfl⟩ := hxL
    exact ⟨L', n, c, hx, a2, by rw [← a3 hv]; exact hg.kinds k L' n hx⟩
  have hvalid : ∀ (i : Nat) (L : ScreenLine T S) (n : Option Nat), client'[i]? = some (some (L, n)) → ∃ c, s.cur[i]? = some c ∧ L.text = c.text := by
    intro i L n hi
    obtain ⟨c, b1, b2, -⟩ := q5.valid i L (by rw [withoutNumbers_get, hi]; rfl)
    exact ⟨c, b1, b2⟩
  obtain ⟨segs, w1, w2, w3, -⟩ := segments_spec s.shadow plan
  have hE : (segLines segs).length ≤ s.cur.length := by rw [w3, List.length_zip]; omega
  cases hn : s.shadow.needsRender plan with
  | none =>
    unfold sendNumbered at e1
    rw [hn] at e1
    cases e1
  | some b =>
    cases b with
    | true =>
      have hright : NumbersRight real s.cur client' := by
        unfold sendNumbered at e1
        rw [hn, w1] at e1
        simp only [Option.bind_eq_bind, Option.bind_some, if_true, Option.pure_def] at e1
        rw [Option.bind_eq_some_iff] at e1
        obtain ⟨⟨b', r⟩, e4, e5⟩ := e1
        simp only [Option.some.injEq, Prod.mk.injEq] at e5
        obtain ⟨ops', e6, e7⟩ := updateLoopNum_right (m := m) (gap := gap) real s.cur hg.first s.client segs 0 [] [] 0 w2 (by omega) (by
          intro i k v t hi hv
          rw [w3, List.getElem?_zip_eq_some] at hi
          rw [Nat.zero_add]
          exact hagree i k v hi.1 hv) b' r e4
        rw [List.nil_append] at e6
        rw [← e6, e5.2] at e7
        intro i L n hi
        have := e7 client' e3 i L n hi
        rwa [Nat.zero_add] at this
      refine ⟨⟨q3, ?_, hg.first⟩, q5, fun _ => hright⟩
      intro i L n hi
      obtain ⟨c, b1, b2⟩ := hvalid i L n hi
      rw [hright i L n hi, rightNumber_isSome b1, b2]
    | false =>
      unfold sendNumbered at e1
      rw [hn] at e1
      simp only [Option.bind_eq_bind, Option.bind_some, Bool.false_eq_true, if_false, Option.pure_def, Option.some.injEq, Prod.mk.injEq] at e1
      obtain ⟨rfl, rfl⟩ := e1
      have hdirty : s.shadow.dirty = false := by
        unfold LineCacheShadow.needsRender at hn
        cases hd : s.shadow.dirty with
        | false => rfl
        | true => simp [hd] at hn
      obtain ⟨g1, g2, g3⟩ := hg.plain.clean hdirty
      have g1 : s.client.length = s.cur.length := by
        have : (withoutNumbers s.client).length = s.cur.length := g1
        simpa [withoutNumbers] using this
      rw [applyNumbered, Nat.zero_add, if_pos (by omega), applyNumbered] at e3
      simp only [Option.map_some, List.append_nil, List.drop_zero, Option.some.injEq] at e3
      rw [List.take_of_length_le (by omega)] at e3
      subst e3
      have hkind : ∀ (i : Nat) (L : ScreenLine T S) (n : Option Nat), s.client[i]? = some (some (L, n)) → ∃ c, s.cur[i]? = some c ∧ n.isSome = real c.text := by
        intro i L n hi
        obtain ⟨v, f1, f2, -⟩ := g3 i L (by
          show (withoutNumbers s.client)[i]? = _
          rw [withoutNumbers_get, hi]
          rfl)
        obtain ⟨L', n', c, f3, f4, f5⟩ := hagree i i v f1 f2
        rw [hi] at f3
        cases f3
        exact ⟨c, f4, f5⟩
      refine ⟨⟨q3, ?_, hg.first⟩, q5, ?_⟩
      · intro i L n hi
        obtain ⟨n', h1, h2⟩ := copyNumbers_kind _ _ _ _ _ hi
        rw [h2]
        exact hg.kinds i L n' h1
      · rintro (h | h | ⟨rfl, h⟩)
        · cases h
        · have hz : logicalAt real s.cur 0 + 1 = 1 := by
            have hl := hg.plain.pos
            have hl : 0 < s.cur.length := hl
            have hc : s.cur[0]? = some s.cur[0] := List.getElem?_eq_getElem hl
            unfold logicalAt
            rw [countP_take_succ hc, hg.first _ hc]
            simp
          intro i L n hi
          have := copyNumbers_right (gap := gap) hg.first s.client 0 (by
            intro j x hx
            match x with
            | none => exact absurd rfl (h _ (List.mem_of_getElem? hx))
            | some (L, n) =>
              obtain ⟨c, f1, f2⟩ := hkind j L n hx
              exact ⟨L, n, c, rfl, by rw [Nat.zero_add]; exact f1, f2⟩) i L n (by rw [hz]; exact hi)
          rwa [Nat.zero_add] at this
        · intro i L n hi
          obtain ⟨n', h1, h2⟩ := copyNumbers_kind _ _ _ _ _ hi
          obtain ⟨c, f1, f2⟩ := hkind i L n' h1
          have hil := (List.getElem?_eq_some_iff.1 f1).1
          have hall : ∀ (i : Nat) (l : ScreenLine T S) (n : Option Nat), s.client[i]? = some (some (l, n)) → n.isSome = true := by
            intro i l n hi
            obtain ⟨c, f1, f2⟩ := hkind i l n hi
            rw [f2]
            exact h c (List.mem_of_getElem? f1)
          have he : copyNumbers 1 1 s.client = renumber 1 1 s.client := by
            rw [copyNumbers.eq_def]
            split
            · rename_i l r e
              have := hall 0 l none (by rw [e]; rfl)
              cases this
            · rfl
          rw [he] at hi
          rw [renumber_all s.client 1 hall i L n hi, rightNumber_eq f1, h c (List.mem_of_getElem? f1), if_pos rfl]
          congr 1
          have : (s.cur.take i).countP (fun l => real l.text) = (s.cur.take i).length :=
            List.countP_eq_length.2 fun a ha => h a (List.mem_of_mem_take ha)
          rw [this, List.length_take]
          omega

theorem numGood_reachable {s : NumState T S} (h : NumReachable m gap real s) : s.Good real := by
  induction h with
  | init cur h hf => exact ⟨good_allDirty h _, by intro i L n hi; simp at hi, hf⟩
  | core s sh' cur' h hs hf ih => exact ⟨hs.good ih.plain, ih.kinds, hf⟩
  | update s s' firstLine height request h hr hu ih =>
    obtain ⟨plan, ops, u1, u2, u3, u4⟩ := hu
    obtain ⟨plan', p1, p2, p3⟩ := planFor_spec ih.plain.pos firstLine height request hr
    have p1 : planFor s.cur.length firstLine height request = some plan' := p1
    rw [u1] at p1
    cases p1
    obtain ⟨sh', ops', client', v1, v2, v3, -⟩ := sendNumbered_right (m := m) (gap := gap) ih p2 p3
    rw [u2] at v1
    cases v1
    rw [u3] at v2
    cases v2
    cases s'
    cases u4
    exact v3

/-! ## C102 -/

/-- **C102.** Whatever has happened to a view, rendering it or answering a request does not crash
and sends an update the front end can apply.  After it the lines are what C57 says, and every
line the front end has shows its logical line number if it begins a logical line and no number
otherwise.

Missing, and refuted by `C102_clean_refuted`: updates that render nothing, if some lines are
wrapped and the front end does not know all of them.  If it knows all lines, or none is
wrapped and it counts an invalid line as one, those are right too. -/
theorem C102_update_partial {s : NumState T S} (h : NumReachable m gap real s) (firstLine height : Nat) (request : Option (Nat × Nat))
    (hr : ∀ a b, request = some (a, b) → a < b) :
    ∃ plan s', planFor s.cur.length firstLine height request = some plan ∧ NumUpdate m gap real s s' firstLine height request ∧
      Shown m s.cur (withoutNumbers s'.client) (fun i => (planLines plan)[i]? = some .render) ∧
      (s.shadow.needsRender plan = some true ∨ (∀ l ∈ s.client, l ≠ none) ∨ gap = 1 ∧ (∀ c ∈ s.cur, real c.text = true) → NumbersRight real s.cur s'.client) := by
  have hg := numGood_reachable h
  obtain ⟨plan, p1, p2, p3⟩ := planFor_spec hg.plain.pos firstLine height request hr
  have p1 : planFor s.cur.length firstLine height request = some plan := p1
  obtain ⟨sh', ops, client', v1, v2, v3, v4, v5⟩ := sendNumbered_right (m := m) (gap := gap) hg p2 p3
  exact ⟨plan, ⟨sh', s.cur, client'⟩, p1, ⟨plan, ops, p1, v1, v2, rfl⟩, v4, v5⟩

/-- **C102.** An update changes the lines of the front end as one of C57. -/
theorem C102_plain {s s' : NumState T S} (h : NumReachable m gap real s) {firstLine height : Nat} (hu : NumUpdate m gap real s s' firstLine height none) :
    ViewStep m s.plain s'.plain := by
  obtain ⟨plan, ops, u1, u2, u3, u4⟩ := hu
  have hg := numGood_reachable h
  have hpl := sendNumbered_plain (real := real) (plan := plan) hg.plain.len
  have hpl : (sendNumbered real s.cur s.shadow plan).map (fun x => (x.1, x.2.map NumOp.plain)) = sendUpdate s.cur s.shadow plan := hpl
  have hap := applyNumbered_plain (m := m) (gap := gap) s.client ops 0
  rw [u2] at hpl
  rw [u3] at hap
  have hc : RenderPlan.create s.cur.length firstLine height = some plan := by
    unfold planFor at u1
    cases hx : RenderPlan.create s.cur.length firstLine height with
    | none => rw [hx] at u1; cases u1
    | some p => rw [hx] at u1; exact u1
  have := ViewStep.render (m := m) s.plain firstLine height s'.shadow (ops.map NumOp.plain) (withoutNumbers s'.client) (by
    show renderIfDirty s.cur s.shadow firstLine height = _
    unfold renderIfDirty
    rw [hc]
    exact hpl.symm) hap.symm
  cases s'
  cases u4
  exact this

theorem lineNums_agree {cur : List (ScreenLine T S)} (hf : FirstReal real cur) {α : Type} (xs : List α) {o : Nat} (h : o + xs.length ≤ cur.length) :
    copyNumbers gap (logicalAt real cur o + 1) ((xs.zip (lineNums real cur o xs.length)).map some) = (xs.zip (lineNums real cur o xs.length)).map some := by
  have hget : ∀ j, j < xs.length → ∃ x, ((xs.zip (lineNums real cur o xs.length)).map some)[j]? = some (some (x, lineNum real cur (o + j))) := by
    intro j hj
    refine ⟨xs[j], ?_⟩
    have : (xs.zip (lineNums real cur o xs.length))[j]? = some (xs[j], lineNum real cur (o + j)) := by
      rw [List.getElem?_zip_eq_some]
      exact ⟨List.getElem?_eq_getElem hj, lineNums_get hj⟩
    rw [List.getElem?_map, this]
    rfl
  have hlen : ((xs.zip (lineNums real cur o xs.length)).map some).length = xs.length := by
    rw [List.length_map, List.length_zip, lineNums_length]
    omega
  have hsame : SameKind real cur o ((xs.zip (lineNums real cur o xs.length)).map some) := by
    intro j y hy
    have hj : j < xs.length := by
      have := (List.getElem?_eq_some_iff.1 hy).1
      omega
    obtain ⟨x, hx⟩ := hget j hj
    rw [hx] at hy
    have hc : cur[o + j]? = some cur[o + j] := List.getElem?_eq_getElem (by omega)
    exact ⟨x, _, _, (Option.some.inj hy).symm, hc, by rw [lineNum_right hf (by omega), rightNumber_isSome hc]⟩
  have hpl := copyNumbers_plain (gap := gap) ((xs.zip (lineNums real cur o xs.length)).map some) (logicalAt real cur o + 1)
  apply List.ext_getElem?
  intro j
  by_cases hj : j < xs.length
  · obtain ⟨x, hx⟩ := hget j hj
    have h1 : (withoutNumbers (copyNumbers gap (logicalAt real cur o + 1) ((xs.zip (lineNums real cur o xs.length)).map some)))[j]? = some (some x) := by
      rw [hpl, withoutNumbers_get, hx]
      rfl
    rw [withoutNumbers_get, Option.map_eq_some_iff] at h1
    obtain ⟨y, hy, hy'⟩ := h1
    rw [Option.map_eq_some_iff] at hy'
    obtain ⟨⟨x', n⟩, rfl, rfl⟩ := hy'
    rw [hy, hx, copyNumbers_right hf _ o hsame j x' n hy, lineNum_right hf (by omega)]
  · rw [List.getElem?_eq_none (by rw [copyNumbers_length]; omega), List.getElem?_eq_none (by omega)]

/-- An `update` whose number for the first line says what the numbers of its lines say. -/
def NumOp.Agrees (gap : Nat) : NumOp T S → Prop
  | .update lines ln => copyNumbers gap (ln.getD 1) (lines.map some) = lines.map some
  | _ => True

theorem updateLoopNum_agrees {cur : List (ScreenLine T S)} (hf : FirstReal real cur) : ∀ (segs : List PlanSegment) (o : Nat) (b : List ShadowSpan)
    (ops : List (NumOp T S)) (ln : Nat), SegOrder o segs → o + (segLines segs).length ≤ cur.length → (∀ op ∈ ops, op.Agrees gap) →
    ∀ b' r, updateLoopNum real cur segs b ops ln = some (b', r) → ∀ op ∈ r, op.Agrees gap
  | [], o, b, ops, ln, _, _, ha, b', r, hr => by
    simp only [updateLoopNum, Option.some.injEq, Prod.mk.injEq] at hr
    rw [← hr.2]
    exact ha
  | g :: segs, o, b, ops, ln, h, hl, ha, b', r, hr => by
    obtain ⟨h1, h2⟩ := h
    rw [segLines_cons, List.length_append, List.length_map, spanLines_length] at hl
    have ih := fun b ops ln hops => updateLoopNum_agrees hf segs (o + g.n) b ops ln h2 (by omega) hops b' r
    have hadd : ∀ more : List (NumOp T S), (∀ op ∈ more, op.Agrees gap) → ∀ op ∈ ops ++ more, op.Agrees gap := by
      intro more hm op hop
      rcases List.mem_append.1 hop with hop | hop
      · exact ha op hop
      · exact hm op hop
    rw [updateLoopNum] at hr
    split at hr
    · exact ih _ _ _ (hadd _ (by simp [NumOp.Agrees])) hr
    · split at hr
      · split at hr
        · cases hr
        · refine ih _ _ _ (hadd _ ?_) hr
          intro op hop
          unfold copyOpsNum at hop
          rcases List.mem_append.1 hop with hop | hop
          · split at hop
            · rw [List.mem_singleton.1 hop]
              trivial
            · simp at hop
          · rw [List.mem_singleton.1 hop]
            split
            · trivial
            · have hx : (encodeCursors cur g.ours g.n).length = g.n := by
                simp [encodeCursors]
                omega
              have key := lineNums_agree (gap := gap) hf (encodeCursors cur g.ours g.n) (o := g.ours) (by omega)
              rw [hx] at key
              show copyNumbers gap (Option.getD (if logicalAt real cur g.ours = 0 then none else some (logicalAt real cur g.ours + 1)) 1) _ = _
              have : Option.getD (if logicalAt real cur g.ours = 0 then none else some (logicalAt real cur g.ours + 1)) 1 = logicalAt real cur g.ours + 1 := by
                split
                · rename_i h0
                  rw [h0]
                  rfl
                · rfl
              rw [this]
              exact key
      · split at hr
        · exact ih _ _ _ (hadd _ (by simp [NumOp.Agrees])) hr
        · split at hr
          · cases hr
          · exact ih _ _ _ (hadd _ (by simp [NumOp.Agrees])) hr

/-- **C102.** The number that an `update` has for its first line (1 if it has none) gives the
lines the same numbers as they have themselves: it does not matter which of the two a front
end goes by. -/
theorem C102_agree {s : NumState T S} (h : NumReachable m gap real s) {plan : RenderPlan} {sh' : LineCacheShadow} {ops : List (NumOp T S)}
    (hs : sendNumbered real s.cur s.shadow plan = some (sh', ops)) (lines : List (Option (List Nat) × Option Nat)) (ln : Option Nat)
    (hop : .update lines ln ∈ ops) (gap' : Nat) : copyNumbers gap' (ln.getD 1) (lines.map some) = lines.map some := by
  have hg := numGood_reachable h
  obtain ⟨segs, w1, w2, w3, -⟩ := segments_spec s.shadow plan
  have hlen : s.shadow.lines.length = s.cur.length := hg.plain.len
  have hE : (segLines segs).length ≤ s.cur.length := by rw [w3, List.length_zip]; omega
  unfold sendNumbered at hs
  rw [w1] at hs
  cases hn : s.shadow.needsRender plan with
  | none => rw [hn] at hs; cases hs
  | some b =>
    rw [hn] at hs
    cases b with
    | false =>
      simp only [Option.bind_eq_bind, Option.bind_some, Bool.false_eq_true, if_false, Option.pure_def, Option.some.injEq, Prod.mk.injEq] at hs
      rw [← hs.2] at hop
      simp at hop
    | true =>
      simp only [Option.bind_eq_bind, Option.bind_some, if_true, Option.pure_def] at hs
      rw [Option.bind_eq_some_iff] at hs
      obtain ⟨⟨b', r⟩, e4, e5⟩ := hs
      simp only [Option.some.injEq, Prod.mk.injEq] at e5
      have := updateLoopNum_agrees (gap := gap') hg.first segs 0 [] [] 0 w2 (by omega) (by simp) b' r e4 (.update lines ln) (by rw [e5.2]; exact hop)
      exact this

end

/-! ### An example -/

/-- A line of the example: its text is whether it begins a logical line. -/
def numLine (b : Bool) (c : List Nat := []) : ScreenLine Bool Unit := ⟨b, (), c⟩

/-- Eight lines; the second is the rest of the first. -/
def numLines : List (ScreenLine Bool Unit) := [numLine true, numLine false, numLine true, numLine true, numLine true, numLine true, numLine true, numLine true]

def numView : NumState Bool Unit := ⟨.allDirty 8, numLines, []⟩

theorem numView_reachable (m : Missing) (gap : Nat) : NumReachable m gap id numView :=
  .init numLines (by decide) (by intro c hc; simp [numLines] at hc; rw [← hc]; rfl)

/-- After a rendering of the whole text. -/
def numShown : NumState Bool Unit := ⟨⟨[⟨8, 0, .all⟩], false⟩, numLines,
  (numLines.zip [some 1, none, some 2, some 3, some 4, some 5, some 6, some 7]).map some⟩

theorem numShown_update (m : Missing) (gap : Nat) : NumUpdate m gap id numView numShown 0 8 none := by
  refine ⟨[(8, .render)], [.insert ((numLines.map fun l => (l.text, l.styles, encodeCursor l.cursor)).zip
    [some 1, none, some 2, some 3, some 4, some 5, some 6, some 7])], by decide, by decide, rfl, rfl⟩

/-- Non-vacuity of C102: a whole line is inserted before the second logical line, the cursor goes
there, and the view is rendered again: one line is sent, the others are copied with new numbers. -/
def numEdited : NumState Bool Unit := ⟨⟨[⟨2, 0, .all⟩, ⟨1, 0, .invalid⟩, ⟨6, 2, .all⟩], true⟩,
  numLines.take 2 ++ [numLine true [0]] ++ numLines.drop 2, numShown.client⟩

example (m : Missing) (gap : Nat) : NumReachable m gap id numEdited :=
  .core numShown _ _ (.update numView numShown 0 8 none (numView_reachable m gap) (by simp) (numShown_update m gap))
    (by
      have := CoreStep.edit numShown.shadow numShown.cur 2 2 [numLine true [0]] (by decide) (by decide) (by decide)
      have e : numShown.shadow.edit 2 2 1 = numEdited.shadow := by decide
      simp only [List.length_singleton, e] at this
      exact this) (by intro c hc; simp [numLines] at hc; rw [← hc]; rfl)

example : numEdited.shadow.needsRender [(9, .render)] = some true ∧
    sendNumbered id numEdited.cur numEdited.shadow [(9, .render)] =
      some (⟨[⟨9, 0, .all⟩], false⟩, [.copy 2 1, .insert [((true, (), some [0]), some 2)], .copy 6 3]) := by decide

example : (applyNumbered .clear 0 numEdited.client [.copy 2 1, .insert [((true, (), some [0]), some 2)], .copy 6 3] 0).map (·.map fun l => l.bind Prod.snd) =
    some [some 1, none, some 2, some 3, some 4, some 5, some 6, some 7, some 8] := by decide

/-- Non-vacuity of `C102_agree`. -/
example : sendNumbered id numLines ⟨[⟨2, 0, .all⟩, ⟨3, 2, ⟨true, true, false⟩⟩, ⟨3, 5, .all⟩], true⟩ [(8, .render)] =
    some (⟨[⟨2, 0, .all⟩, ⟨3, 2, ⟨true, true, false⟩⟩, ⟨3, 5, .all⟩], false⟩,
      [.copy 2 1, .update [(none, some 2), (none, some 3), (none, some 4)] (some 2), .copy 3 5]) := by decide

/-! ### Nothing to render -/

/-- After a rendering of the lines from the sixth on: the front end does not know the first
three, of which the second is the rest of the first. -/
def numScrolled : NumState Bool Unit := ⟨⟨[⟨3, 0, .invalid⟩, ⟨5, 3, .all⟩], false⟩, numLines,
  List.replicate 3 none ++ ((numLines.drop 3).zip [some 3, some 4, some 5, some 6, some 7]).map some⟩

theorem numScrolled_update (m : Missing) (gap : Nat) : NumUpdate m gap id numView numScrolled 5 3 none := by
  refine ⟨[(3, .preserve), (5, .render)], [.invalidate 3, .insert (((numLines.drop 3).map fun l => (l.text, l.styles, encodeCursor l.cursor)).zip
    [some 3, some 4, some 5, some 6, some 7])], by decide, by decide, rfl, rfl⟩

/-- **C102** fails for updates that render nothing: all lines are copied, with 1 as the number of
the first (view.rs:770-776), although the front end does not know the lines at the
beginning.  However many numbers it takes an invalid line to stand for, the others get wrong numbers.
It is enough that a wrapped text is rendered twice, the second time only because it has been saved. -/
theorem C102_clean_refuted (m : Missing) (gap : Nat) : ∃ s s' : NumState Bool Unit, NumReachable m gap id s ∧ NumbersRight id s.cur s.client ∧
    NumUpdate m gap id s s' 5 3 none ∧ s'.shadow = s.shadow ∧ ¬ NumbersRight id s'.cur s'.client := by
  refine ⟨numScrolled, ⟨numScrolled.shadow, numLines, copyNumbers gap 1 numScrolled.client⟩,
    .update numView numScrolled 5 3 none (numView_reachable m gap) (by simp) (numScrolled_update m gap), ?_, ?_, rfl, ?_⟩
  · intro i L n hi
    have hl := (List.getElem?_eq_some_iff.1 hi).1
    have hl : i < 8 := hl
    match i, hl with
    | 0, _ => simp [numScrolled] at hi
    | 1, _ => simp [numScrolled] at hi
    | 2, _ => simp [numScrolled] at hi
    | 3, _ => simp [numScrolled, numLines] at hi; rw [← hi.2]; decide
    | 4, _ => simp [numScrolled, numLines] at hi; rw [← hi.2]; decide
    | 5, _ => simp [numScrolled, numLines] at hi; rw [← hi.2]; decide
    | 6, _ => simp [numScrolled, numLines] at hi; rw [← hi.2]; decide
    | 7, _ => simp [numScrolled, numLines] at hi; rw [← hi.2]; decide
  · exact ⟨[(3, .preserve), (5, .render)], [.copy 8 1], by decide,
      show sendNumbered id numScrolled.cur numScrolled.shadow _ = some (numScrolled.shadow, _) by decide, by
      rw [applyNumbered, if_pos (by decide), applyNumbered]
      simp [numScrolled, numLines], rfl⟩
  · intro h
    have := h 3 (numLine true) (some (1 + gap + gap + gap)) (by
      simp [numScrolled, numLines, copyNumbers, renumber, List.replicate])
    rw [show rightNumber id numLines 3 = some 3 by decide] at this
    have := Option.some.inj this
    omega

/-! ## The numbers of a text -/

/-- A visual line as a line of a view: its text is the visual line itself, and it begins a
logical line if it has a number. -/
def numberedLine (l : VisualLine) : ScreenLine VisualLine Unit := ⟨l, (), []⟩

/-- The lines of a text as the lines of a view. -/
def linesOfText (ls : List VisualLine) : List (ScreenLine VisualLine Unit) := ls.map numberedLine

open Classical in
theorem shownNumber_isSome (t : List UInt8) (o : Nat) : (shownNumber t o).isSome = decide (o = 0 ∨ LineBoundary t o) := by
  unfold shownNumber
  split <;> simp_all

open Classical in
theorem count_next {t : List UInt8} {b : List Bool} {o p : Nat} (h : IsNext (Starts t b) t.length o (some p)) :
    (t.take p).count newline = (t.take o).count newline + if LineBoundary t p then 1 else 0 := by
  obtain ⟨h1, h2, h3, h4⟩ := h
  have hg := count_take_gap t newline (o := o) (p := p - 1) (by omega) (fun k k1 k2 e => h4 k k1 (by omega) (.inl ⟨by omega, e⟩))
  have hc : t[p - 1]? = some (t[p - 1]'(by omega)) := List.getElem?_eq_getElem (by omega)
  rw [show p = p - 1 + 1 by omega, List.take_add_one, List.count_append, hg, hc]
  congr 1
  rw [show p - 1 + 1 = p by omega]
  unfold LineBoundary
  by_cases he : t[p - 1]'(by omega) = newline
  · rw [he, if_pos ⟨by omega, by rw [hc, he]⟩]
    simp
  · rw [if_neg (by rintro ⟨-, e⟩; rw [hc] at e; exact he (Option.some.inj e))]
    simp [he]

open Classical in
theorem linesFrom_numbers {t : List UInt8} {b : List Bool} (ha : ∀ k, LineBoundary t k → ¬ BreakAt b k) {o : Nat} {ls : List VisualLine}
    (h : LinesFrom t b o ls) (h0 : LineAt t b (lineIndex t b o) o) : ∀ (i : Nat) (l : VisualLine), ls[i]? = some l →
      LineAt t b (lineIndex t b o + i) l.interval.start ∧ l.lineNum = shownNumber t l.interval.start ∧
      (t.take o).count newline + (ls.take (i + 1)).countP (fun l => l.lineNum.isSome) =
        (t.take l.interval.start).count newline + if o = 0 ∨ LineBoundary t o then 1 else 0 := by
  induction h with
  | last h =>
    rename_i o
    intro i l hl
    cases i with
    | zero =>
      simp only [List.getElem?_cons_zero, Option.some.injEq] at hl
      subst hl
      refine ⟨h0, rfl, ?_⟩
      simp only [Nat.zero_add, List.take_succ_cons, List.take_zero, List.countP_cons, List.countP_nil, shownNumber_isSome, decide_eq_true_eq]
    | succ i => simp at hl
  | more h hs ih =>
    rename_i o p ls
    have hn := h
    obtain ⟨h1, h2, h3, h4⟩ := h
    have hi := lineIndex_hit ha h1 h3 h4
    have ih := ih (.inr ⟨h3, h2, rfl⟩)
    intro i l hl
    cases i with
    | zero =>
      simp only [List.getElem?_cons_zero, Option.some.injEq] at hl
      subst hl
      refine ⟨h0, rfl, ?_⟩
      simp only [Nat.zero_add, List.take_succ_cons, List.take_zero, List.countP_cons, List.countP_nil, shownNumber_isSome, decide_eq_true_eq]
    | succ i =>
      simp only [List.getElem?_cons_succ] at hl
      obtain ⟨g1, g2, g3⟩ := ih i l hl
      refine ⟨by rwa [hi, show lineIndex t b o + 1 + i = lineIndex t b o + (i + 1) by omega] at g1, g2, ?_⟩
      have hc := count_next hn
      have hp : (p = 0 ∨ LineBoundary t p) ↔ LineBoundary t p := ⟨fun h => h.resolve_left (by omega), .inr⟩
      simp only [hp] at g3
      simp only [List.take_succ_cons, List.countP_cons, shownNumber_isSome, decide_eq_true_eq]
      omega

/-- **C102.** For the visual lines of a text, what the core sends is what C102 says it should:
a line has the number one more than the newlines before it if it comes right after one or is the
first, and the logical line of the offset of line `i` is what the model says. -/
theorem C102_text {r : Rope} {b : Breaks} (wraps : Bool) (ha : Agree r b) (hw : wraps = false → ∀ k, ¬ BreakAt b.text k)
    (he : ¬ BreakAt b.text r.text.length) :
    ∃ v ls, iterLines b r 0 = some v ∧ v.collect (r.text.length + 2) = some ls ∧ 0 < ls.length ∧ FirstReal (fun l => l.lineNum.isSome) (linesOfText ls) ∧
      ∀ (i : Nat) (l : VisualLine), ls[i]? = some l →
        l.lineNum = shownNumber r.text l.interval.start ∧
        rightNumber (fun l => l.lineNum.isSome) (linesOfText ls) i = l.lineNum ∧
        lineNum (fun l => l.lineNum.isSome) (linesOfText ls) i = l.lineNum ∧
        offsetOfVisualLine wraps b r i = some l.interval.start ∧
        r.lineOfOffset l.interval.start = some (logicalAt (fun l => l.lineNum.isSome) (linesOfText ls) i) := by
  classical
  obtain ⟨v, o, ls, e1, e2, e3, e4⟩ := C53_iter_lines ha he 0 (Nat.zero_le _)
  have ho : o = 0 := C53_line_unique ha e2 (.inl ⟨rfl, rfl⟩)
  subst ho
  have hz : lineIndex r.text b.text 0 = 0 := lineIndex_zero
  have key := linesFrom_numbers ha.apart e4 (by rw [hz]; exact e2)
  have hf : FirstReal (fun l => l.lineNum.isSome) (linesOfText ls) := by
    intro c hc
    unfold linesOfText at hc
    rw [List.getElem?_map, Option.map_eq_some_iff] at hc
    obtain ⟨l, hl, rfl⟩ := hc
    obtain ⟨g1, g2, g3⟩ := key 0 l hl
    show l.lineNum.isSome = true
    rw [hz] at g1
    rw [g2, C53_line_unique ha g1 (.inl ⟨rfl, rfl⟩), shownNumber_isSome]
    simp
  refine ⟨v, ls, e1, e3, by cases e4 <;> simp, hf, ?_⟩
  intro i l hl
  have hil := (List.getElem?_eq_some_iff.1 hl).1
  obtain ⟨g1, g2, g3⟩ := key i l hl
  rw [hz, Nat.zero_add] at g1
  obtain ⟨k1, k2⟩ := lineAt_char ha g1
  have hcount : ((linesOfText ls).take (i + 1)).countP (fun l => l.text.lineNum.isSome) = (r.text.take l.interval.start).count newline + 1 := by
    unfold linesOfText
    rw [← List.map_take, List.countP_map]
    simp only [List.take_zero, List.count_nil, Nat.zero_add, true_or, if_true] at g3
    rw [← g3]
    rfl
  have hlog : logicalAt (fun l : VisualLine => l.lineNum.isSome) (linesOfText ls) i = (r.text.take l.interval.start).count newline := by
    unfold logicalAt
    rw [hcount]
    rfl
  have hlen : i < (linesOfText ls).length := by simpa [linesOfText] using hil
  have hget : (linesOfText ls)[i]? = some (numberedLine l) := by
    unfold linesOfText
    rw [List.getElem?_map, hl]
    rfl
  have hnum : lineNum (fun l : VisualLine => l.lineNum.isSome) (linesOfText ls) i = l.lineNum := by
    unfold lineNum
    rw [hlog, hget]
    show (if l.lineNum.isSome = true then _ else _) = _
    rw [g2]
    unfold shownNumber
    split <;> simp
  refine ⟨g2, by rw [← lineNum_right hf hlen]; exact hnum, hnum, ?_, ?_⟩
  · obtain ⟨o', f1, f2, f3⟩ := C53_offset_of_line wraps ha hw i
    rw [f1]
    congr 1
    refine C53_line_unique ha (f2 ?_) g1
    rw [← k2]
    refine lineIndex_mono ?_
    obtain ⟨cs, ds, x1, x2⟩ := k1
    rw [x1]
    simp [x2]
  · rw [hlog]
    exact Rope.lineOfOffset_spec ha.text k1

/-- Non-vacuity of `C102_text`: the text `abc⏎defghi⏎`, wrapped after `de` and `defg`. -/
example : Agree exampleVisual.1 exampleVisual.2 ∧
    (((iterLines exampleVisual.2 exampleVisual.1 0).bind (·.collect 13)).map fun ls =>
      (List.range 5).map fun i => (lineNum (fun l => l.lineNum.isSome) (linesOfText ls) i, logicalAt (fun l => l.lineNum.isSome) (linesOfText ls) i)) =
    some [(some 1, 0), (some 2, 1), (none, 1), (none, 1), (some 3, 2)] := ⟨exampleVisual_agree, by decide +kernel⟩

end Xi
