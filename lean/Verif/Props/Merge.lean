import Verif.Rope.MergeNet
import Verif.Props.Engine

/-!
# Merging replicas (rope/src/engine.rs): C27, C28, C50
-/

namespace Xi

variable {α : Type} {tok : RevId → Nat} {a b : Engine α}

/-- Two replicas for the examples, sessions (1, 0) and (2, 0).  The first writes
`1 2 3`; the second merges that.  Then, concurrently, the first inserts `4` after
`1` and deletes `3`; the second inserts `5` after `1` and deletes `2`. -/
def exReplicas : Option (Engine Nat × Engine Nat) := do
  let e ← Engine.empty
  let a ← e.setSessionId (1, 0)
  let b ← e.setSessionId (2, 0)
  let tok : RevId → Nat := fun r => 10 * r.session1 + r.num
  let a ← a.editRev tok 0 1 0 ⟨[.insert [1, 2, 3]], 0⟩
  let b ← b.merge a
  let a ← a.editRev tok 0 2 11 ⟨[.copy 0 1, .insert [4], .copy 1 2], 3⟩
  let b ← b.editRev tok 0 3 11 ⟨[.copy 0 1, .insert [5], .copy 2 3], 3⟩
  return (a, b)

example : exReplicas.map (fun (a, b) => [a.text, b.text]) = some [[1, 4, 2], [1, 5, 3]] := by decide +kernel

theorem editRev_left {a' : Engine α} (h : Replicas tok a b) {p g t : Nat} {d : Delta α} (hd : d.WF)
    (he : a.editRev tok p g t d = some a') : Replicas tok a' b := by
  simp only [Engine.editRev, Option.bind_eq_bind, Option.bind_eq_some_iff] at he
  obtain ⟨x, h1, h2⟩ := he
  cases x with
  | error err => simp at h2
  | ok y => simp at h2; subst h2; exact h.editLeft p g t d hd h1

theorem editRev_right {b' : Engine α} (h : Replicas tok a b) {p g t : Nat} {d : Delta α} (hd : d.WF)
    (he : b.editRev tok p g t d = some b') : Replicas tok a b' := by
  simp only [Engine.editRev, Option.bind_eq_bind, Option.bind_eq_some_iff] at he
  obtain ⟨x, h1, h2⟩ := he
  cases x with
  | error err => simp at h2
  | ok y => simp at h2; subst h2; exact h.editRight p g t d hd h1

/-- The example is a reachable state. -/
example : ∃ a b, exReplicas = some (a, b) ∧ Replicas (fun r => 10 * r.session1 + r.num) a b := by
  have h : exReplicas.isSome = true := by decide +kernel
  obtain ⟨⟨a, b⟩, he⟩ := Option.isSome_iff_exists.1 h
  refine ⟨a, b, he, ?_⟩
  simp only [exReplicas, Option.bind_eq_bind, Option.bind_eq_some_iff, Option.pure_def, Option.some.injEq, Prod.mk.injEq] at he
  obtain ⟨e, h1, a1, h2, b1, h3, a2, h4, b2, h5, a3, h6, b3, h7, rfl, rfl⟩ := he
  exact editRev_right (editRev_left (.mergeRight (editRev_left (.start h1 (by decide) h2 h3) (by decide) h4) h5) (by decide) h6)
    (by decide) h7

/-! ### C27 -/

/-- **C19** with merges: in all states of two replicas text and deleted text fit
together and no operation panics, merges included. -/
theorem C19_replicas [Nonempty α] (h : Replicas tok a b) : a.Consistent ∧ a.Safe tok ∧ b.Consistent ∧ b.Safe tok := by
  obtain ⟨Z, pr, grp, hp⟩ := h.peers
  exact ⟨hp.left.den.consistent, hp.left.den.safe, hp.right.den.consistent, hp.right.den.safe⟩

/-- **C27.** Replicas that know the same edits have the same state: the same
text, and the same record of what has been deleted. -/
theorem C27_same_edits_same_text (h : Replicas tok a b) (hk : ∀ x, x ∈ a.knows ↔ x ∈ b.knows) :
    a.text = b.text ∧ a.tombstones = b.tombstones ∧ a.deletesFromUnion = b.deletesFromUnion := by
  obtain ⟨Z, pr, grp, hp⟩ := h.peers
  exact hp.left.same hp.right hk

/-- **C27.** Whatever two replicas have done, merging never fails, and after each
has merged the other's edits they show the same text: in whatever order they
merge, and also when both merge the other's state from before. -/
theorem C27_merge_converges (h : Replicas tok a b) :
    ∃ a' b' b'', a.merge b = some a' ∧ b.merge a = some b' ∧ b.merge a' = some b'' ∧
      a'.text = b'.text ∧ a'.text = b''.text := by
  obtain ⟨Z, pr, grp, hp⟩ := h.peers
  obtain ⟨a', m1, m2, m3, _⟩ := hp.merge
  obtain ⟨b', n1, n2, n3, _⟩ := hp.swap.merge
  obtain ⟨b'', k1, k2, k3, _⟩ := m2.swap.merge
  refine ⟨a', b', b'', m1, n1, k1, (m2.left.same n2.left ?_).1, (m2.left.same k2.left ?_).1⟩
  · intro x
    rw [m3, n3, List.mem_append, List.mem_append, mem_onlyIn, mem_onlyIn]
    by_cases h1 : x ∈ ids a.revs <;> by_cases h2 : x ∈ ids b.revs <;> simp [h1, h2]
  · intro x
    rw [k3, List.mem_append, mem_onlyIn, m3, List.mem_append, mem_onlyIn]
    by_cases h1 : x ∈ ids a.revs <;> by_cases h2 : x ∈ ids b.revs <;> simp [h1, h2]

example : exReplicas.bind (fun (a, b) => do
    let a' ← a.merge b
    let b' ← b.merge a
    return [a'.text, b'.text]) = some [[1, 4, 5], [1, 4, 5]] := by decide +kernel

/-! ### C28 -/

/-- **C28.** There is one document of which every replica shows the part it
knows.  Merging keeps all edits a replica knows and adds exactly those it is
missing, in their order; afterwards it shows what both know: everything that
either has inserted, without what either has deleted. -/
theorem C28_merge_adds_missing (h : Replicas tok a b) :
    ∃ (Z : List (Chr α)) (a' : Engine α), a.merge b = some a' ∧
      a'.knows = a.knows ++ b.knows.filter (fun x => !a.knows.contains x) ∧
      CountsOf Z a ∧ CountsOf Z b ∧
      a.text = shownText a.knows Z ∧ b.text = shownText b.knows Z ∧
      a'.text = shownText (a.knows ++ b.knows) Z := by
  obtain ⟨Z, pr, grp, hp⟩ := h.peers
  obtain ⟨a', m1, m2, m3, _⟩ := hp.merge
  refine ⟨Z, a', m1, m3, hp.left.counts hp.zok, hp.right.counts hp.zok, hp.left.text, hp.right.text, ?_⟩
  rw [m2.left.text]
  unfold shownText
  congr 1
  apply List.filter_congr
  intro c _
  have hk : ∀ x, a'.knows.contains x = (a.knows ++ b.knows).contains x := by
    intro x
    rw [Bool.eq_iff_iff, List.contains_iff_mem, List.contains_iff_mem]
    rw [show a'.knows = ids a'.revs from rfl, m3, List.mem_append, List.mem_append, mem_onlyIn]
    rw [show a.knows = ids a.revs from rfl, show b.knows = ids b.revs from rfl]
    by_cases h1 : x ∈ ids a.revs <;> simp [h1]
  unfold Chr.shown
  simp only [hk]

/-- **C28.** Merging a replica that has nothing new changes nothing at all, and
merging the same state twice is the same as merging it once. -/
theorem C28_nothing_new (h : Replicas tok a b) :
    ((∀ x ∈ b.knows, x ∈ a.knows) → a.merge b = some a) ∧
    ∃ a', a.merge b = some a' ∧ a'.merge b = some a' := by
  obtain ⟨Z, pr, grp, hp⟩ := h.peers
  refine ⟨?_, ?_⟩
  · intro hk
    obtain ⟨a', m1, _, _, _, m5⟩ := hp.merge
    have : onlyIn b a = [] := by
      rw [onlyIn, List.filter_eq_nil_iff]
      intro x hx
      have := hk x hx
      simp only [Bool.not_eq_true, Bool.not_eq_false', List.contains_iff_mem]
      exact this
    rw [m1, m5 this]
  · obtain ⟨a', m1, m2, m3, _⟩ := hp.merge
    refine ⟨a', m1, ?_⟩
    obtain ⟨a'', n1, _, _, _, n5⟩ := m2.merge
    have : onlyIn b a' = [] := by
      rw [onlyIn, List.filter_eq_nil_iff, m3]
      intro x hx
      by_cases hxa : x ∈ ids a.revs
      · simp [hxa]
      · simp [hxa, mem_onlyIn, hx]
    rw [n1, n5 this]

example : exReplicas.bind (fun (a, b) => do
    let a' ← a.merge b
    let a'' ← a'.merge b
    return ([a.knows, b.knows, a'.knows, a''.knows].map (·.map (fun r => 10 * r.session1 + r.num)))) =
    some [[0, 11, 12], [0, 11, 21], [0, 11, 12, 21], [0, 11, 12, 21]] := by decide +kernel

/-! ### C50 -/

/-- Three replicas, each of which inserts one character into the empty document,
all with the same priority. -/
def exThree : Option (Engine Nat × Engine Nat × Engine Nat) := do
  let e ← Engine.empty
  let tok : RevId → Nat := fun r => 10 * r.session1 + r.num
  let a ← e.setSessionId (1, 0)
  let b ← e.setSessionId (2, 0)
  let c ← e.setSessionId (3, 0)
  let a ← a.editRev tok 0 1 0 ⟨[.insert [1]], 0⟩
  let b ← b.editRev tok 0 1 0 ⟨[.insert [2]], 0⟩
  let c ← c.editRev tok 0 1 0 ⟨[.insert [3]], 0⟩
  return (a, b, c)

/-- **C50 is false.** Three replicas that have merged each other's edits in
different orders can show three different texts, although all know the same
edits.  (`compute_transforms`, engine.rs:863-882, groups neighbouring revisions
by priority without regard to the session, and ties are decided by the session
of the first revision in the group.) -/
theorem C50_three_replicas_refuted :
    exThree.bind (fun (a, b, c) => do
      let a1 ← (← a.merge b).merge c
      let a2 ← (← a.merge c).merge b
      let c1 ← (← c.merge a).merge b
      return [a1.text, a2.text, c1.text]) = some [[1, 2, 3], [1, 3, 2], [2, 1, 3]] ∧
    exThree.bind (fun (a, b, c) => do
      let a1 ← (← a.merge b).merge c
      let a2 ← (← a.merge c).merge b
      let c1 ← (← c.merge a).merge b
      return [a1, a2, c1].map (fun e => e.knows.map (fun r => r.session1))) =
      some [[0, 1, 2, 3], [0, 1, 3, 2], [0, 3, 1, 2]] := by
  constructor <;> decide +kernel

section Network

variable {ι : Type} [DecidableEq ι] {own : Nat → Nat × Nat} {es : ι → Engine α}

/-- **C50**, if every replica has priorities of its own: of any number of
replicas, which have edited and merged each other's states in any order, those
that know the same edits have the same state.  Missing: replicas that share a
priority (`C50_three_replicas_refuted`). -/
theorem C50_same_edits_same_text_partial (h : Network tok own es) (i j : ι)
    (hk : ∀ x, x ∈ (es i).knows ↔ x ∈ (es j).knows) :
    (es i).text = (es j).text ∧ (es i).tombstones = (es j).tombstones ∧ (es i).deletesFromUnion = (es j).deletesFromUnion := by
  obtain ⟨Z, pr, grp, past, all, hn⟩ := h.net
  exact (hn.peer i).same (hn.peer j) hk

/-- **C50**, if every replica has priorities of its own: there is one document of
which every replica shows the part it knows; merging never fails, keeps all edits
a replica knows and adds exactly those it is missing, in their order. -/
theorem C50_one_document_partial (h : Network tok own es) :
    ∃ Z : List (Chr α), (∀ i, (es i).text = shownText (es i).knows Z ∧ CountsOf Z (es i)) ∧
      ∀ i j, ∃ e', (es i).merge (es j) = some e' ∧
        e'.knows = (es i).knows ++ (es j).knows.filter (fun x => !(es i).knows.contains x) ∧ e'.text = shownText e'.knows Z ∧
        ((∀ x ∈ (es j).knows, x ∈ (es i).knows) → e' = es i) := by
  obtain ⟨Z, pr, grp, past, all, hn⟩ := h.net
  refine ⟨Z, fun i => ⟨(hn.peer i).text, (hn.peer i).counts hn.zok⟩, fun i j => ?_⟩
  obtain ⟨e', m1, m2, m3, m4⟩ := hn.merge i j
  have hp := m2.peer i
  simp only [setAt, if_true] at hp
  refine ⟨e', m1, m3, hp.text, fun hk => m4 ?_⟩
  rw [onlyIn, List.filter_eq_nil_iff]
  intro x hx
  have := hk x hx
  simp only [Bool.not_eq_true, Bool.not_eq_false', List.contains_iff_mem]
  exact this

/-- **C50**, if every replica has priorities of its own: merging two replicas one
after the other gives the same text in either order. -/
theorem C50_merge_order_partial (h : Network tok own es) (i j k : ι) (hj : j ≠ i) (hk : k ≠ i) :
    ∃ e1 e2 f1 f2, (es i).merge (es j) = some e1 ∧ e1.merge (es k) = some e2 ∧ (es i).merge (es k) = some f1 ∧
      f1.merge (es j) = some f2 ∧ e2.text = f2.text ∧ e2.tombstones = f2.tombstones ∧
      e2.deletesFromUnion = f2.deletesFromUnion := by
  obtain ⟨Z, pr, grp, past, all, hn⟩ := h.net
  obtain ⟨e1, a1, a2, a3, _⟩ := hn.merge i j
  obtain ⟨f1, b1, b2, b3, _⟩ := hn.merge i k
  obtain ⟨e2, c1, c2, c3, _⟩ := a2.merge i k
  obtain ⟨f2, d1, d2, d3, _⟩ := b2.merge i j
  simp only [setAt, if_true, hj, hk, if_false] at c1 c3 d1 d3
  have pe := c2.peer i
  have pf := d2.peer i
  simp only [setAt, if_true] at pe pf
  refine ⟨e1, e2, f1, f2, a1, c1, b1, d1, pe.same pf ?_⟩
  intro x
  rw [c3, d3, List.mem_append, List.mem_append, mem_onlyIn, mem_onlyIn, a3, b3, List.mem_append, List.mem_append, mem_onlyIn, mem_onlyIn]
  by_cases h1 : x ∈ ids (es i).revs <;> by_cases h2 : x ∈ ids (es j).revs <;> by_cases h3 : x ∈ ids (es k).revs <;> simp [h1, h2, h3]

/-- **C19** with merges: in all states of any number of replicas, each with
priorities of its own, text and deleted text fit together and no operation
panics, merges included. -/
theorem C19_network [Nonempty α] (h : Network tok own es) (i : ι) :
    (es i).Consistent ∧ (es i).Safe tok ∧ ∀ j, ((es i).merge (es j)).isSome := by
  obtain ⟨Z, pr, grp, past, all, hn⟩ := h.net
  refine ⟨(hn.peer i).den.consistent, (hn.peer i).den.safe, fun j => ?_⟩
  obtain ⟨e', m1, _⟩ := hn.merge i j
  simp [m1]

/-- A step of a network, for the examples. -/
inductive NetStep (ι α : Type)
  | edit (i : ι) (p g t : Nat) (d : Delta α)
  | merge (i j : ι)

/-- The states after `steps`. -/
def runNet [DecidableEq α] (tok : RevId → Nat) (own : Nat → Nat × Nat) : List (NetStep ι α) → (ι → Engine α) → Option (ι → Engine α)
  | [], es => some es
  | .edit i p g t d :: steps, es =>
    if d.WF ∧ own p = (es i).session then
      match (es i).tryEditRev tok p g t d with
      | some (.ok e') => runNet tok own steps (setAt es i e')
      | _ => none
    else none
  | .merge i j :: steps, es =>
    match (es i).merge (es j) with
    | some e' => runNet tok own steps (setAt es i e')
    | none => none

theorem runNet_network [DecidableEq α] : ∀ (steps : List (NetStep ι α)) (es : ι → Engine α), Network tok own es →
    ∀ es', runNet tok own steps es = some es' → Network tok own es' := by
  intro steps
  induction steps with
  | nil => intro es h es' he; simp [runNet] at he; exact he ▸ h
  | cons st steps ih =>
    intro es h es' he
    cases st with
    | edit i p g t d =>
      rw [runNet] at he
      split at he
      · next hg =>
        split at he
        · next e' h1 => exact ih _ (h.edit i p g t d hg.1 hg.2 h1) es' he
        · cases he
      · cases he
    | merge i j =>
      rw [runNet] at he
      split at he
      · next e' h1 => exact ih _ (h.merge i j h1) es' he
      · cases he

/-- Three replicas, sessions (1, 0), (2, 0) and (3, 0), for the examples. -/
def exStart : Option (Fin 3 → Engine Nat) := do
  let e ← Engine.empty
  let a ← e.setSessionId (1, 0)
  let b ← e.setSessionId (2, 0)
  let c ← e.setSessionId (3, 0)
  return setAt (setAt (fun _ => a) 1 b) 2 c

/-- The first writes `1 2`, which the others merge; then each inserts a character
between the two, with a priority of its own. -/
def exSteps : List (NetStep (Fin 3) Nat) :=
  [.edit 0 1 1 0 ⟨[.insert [1, 2]], 0⟩, .merge 1 0, .merge 2 0,
   .edit 0 1 2 11 ⟨[.copy 0 1, .insert [10], .copy 1 2], 2⟩,
   .edit 1 2 3 11 ⟨[.copy 0 1, .insert [20], .copy 1 2], 2⟩,
   .edit 2 3 4 11 ⟨[.copy 0 1, .insert [30], .copy 1 2], 2⟩]

/-- The states after `steps`. -/
def exNet (steps : List (NetStep (Fin 3) Nat)) : Option (Fin 3 → Engine Nat) :=
  exStart.bind (runNet (fun r => 10 * r.session1 + r.num) (fun p => (p, 0)) steps)

theorem exNet_network {steps : List (NetStep (Fin 3) Nat)} {es : Fin 3 → Engine Nat} (h : exNet steps = some es) :
    Network (fun r => 10 * r.session1 + r.num) (fun p => (p, 0)) es := by
  simp only [exNet, exStart, Option.bind_eq_bind, Option.bind_eq_some_iff, Option.pure_def, Option.some.injEq] at h
  obtain ⟨es0, ⟨e, h1, a, h2, b, h3, c, h4, rfl⟩, h5⟩ := h
  refine runNet_network steps _ (.start (s := fun i => (i.val + 1, 0)) h1 ?_ ?_) _ h5
  · intro i j hij
    simp at hij
    exact Fin.ext hij
  · intro i
    match i with
    | 0 => exact h2
    | 1 => exact h3
    | 2 => exact h4

/-- Merging in different orders, and merging states that have themselves merged,
gives the same text. -/
example : (exNet exSteps).map (fun es => [es 0, es 1, es 2].map Engine.text) = some [[1, 10, 2], [1, 20, 2], [1, 30, 2]] ∧
    (exNet (exSteps ++ [.merge 0 1, .merge 0 2, .merge 1 2, .merge 2 1, .merge 1 0, .merge 2 0])).map (fun es => [es 0, es 1, es 2].map
      (fun e => (e.text, e.knows.map (fun r => 10 * r.session1 + r.num)))) =
      some [([1, 10, 20, 30, 2], [0, 11, 12, 21, 31]), ([1, 10, 20, 30, 2], [0, 11, 21, 31, 12]),
        ([1, 10, 20, 30, 2], [0, 11, 31, 21, 12])] := by
  constructor <;> decide +kernel

end Network

end Xi
