import Verif.Spec.EditOps
import Verif.Rope.DeltaPosLemmas
import Verif.Rope.DiffLemmas
import Verif.Rope.LinesLemmas
import Verif.Props.Delta
import Verif.Props.Movement

/-!
# Editing commands as lists of replacements
-/

namespace Xi

namespace EditOps

open Selection

theorem deltaRun_append (b : Builder) (x y : Script) : b.run (x ++ y) = (b.run x).bind (fun b => b.run y) := by
  simp [DeltaBuilder.run, List.foldlM_append]

theorem deltaRun_nil (b : Builder) : b.run [] = some b := rfl

theorem deltaRun_one (b : Builder) (x : Nat × Nat × List UInt8) : b.run [x] = b.replace x.1 x.2.1 x.2.2 := by
  simp [DeltaBuilder.run]

theorem delete_eq (b : Builder) (x y : Nat) : b.delete x y = b.replace x y [] := by
  simp [DeltaBuilder.replace]

theorem fold_scripts {β : Type} {step : Builder → β → Option Builder} {scr : β → Script} : ∀ {l : List β} (b : Builder),
    (∀ x ∈ l, ∀ b, step b x = b.run (scr x)) → l.foldlM step b = b.run (l.flatMap scr)
  | [], b, _ => rfl
  | x :: l, b, h => by
    rw [List.foldlM_cons, List.flatMap_cons, deltaRun_append, h x (by simp)]
    cases b.run (scr x) with
    | none => rfl
    | some b' => exact fold_scripts b' (fun y hy => h y (by simp [hy]))

theorem lastOffset_replace {b b' : Builder} {s e : Nat} {x : List UInt8} (h : b.replace s e x = some b') : b.lastOffset ≤ s ∧ b'.lastOffset = e := by
  simp only [DeltaBuilder.replace, DeltaBuilder.delete] at h
  split at h
  · simp only [Option.bind_eq_bind, Option.bind_some, Option.pure_def, Option.some.injEq] at h
    subst h
    refine ⟨by omega, ?_⟩
    split <;> rfl
  · simp at h

theorem replace_none {b : Builder} {s e : Nat} {x : List UInt8} (h : s < b.lastOffset) : b.replace s e x = none := by
  simp only [DeltaBuilder.replace, DeltaBuilder.delete]
  rw [if_neg (by omega)]
  rfl

theorem run_none : ∀ {script : Script} {b : Builder}, ¬ Ordered b.lastOffset script → b.run script = none
  | [], b, h => (h trivial).elim
  | (s, e, x) :: rest, b, h => by
    rw [show (s, e, x) :: rest = [(s, e, x)] ++ rest from rfl, deltaRun_append, deltaRun_one]
    simp only [Ordered, not_and] at h
    by_cases hs : b.lastOffset ≤ s
    · cases e1 : b.replace s e x with
      | none => rfl
      | some b' =>
        simp only [Option.bind_some]
        apply run_none
        rw [(lastOffset_replace e1).2]
        exact h hs
    · rw [replace_none (by omega)]
      rfl

theorem scriptOk_of {n : Nat} : ∀ {script : Script} {lo : Nat}, Ordered lo script → (∀ x ∈ script, x.1 ≤ x.2.1 ∧ x.2.1 ≤ n) → lo ≤ n → ScriptOk n lo script
  | [], _, _, _, h => h
  | (s, e, x) :: rest, lo, h, h1, _ =>
    ⟨h.1, (h1 (s, e, x) (by simp)).1, scriptOk_of h.2 (fun y hy => h1 y (by simp [hy])) (h1 (s, e, x) (by simp)).2⟩

theorem ordered_of {n : Nat} : ∀ {script : Script} {lo : Nat}, ScriptOk n lo script → Ordered lo script
  | [], _, _ => trivial
  | (_, _, _) :: _, _, h => ⟨h.1, ordered_of h.2.2⟩

theorem ordered_append {m n : Nat} : ∀ {x y : Script} {lo m' : Nat}, ScriptOk m lo x → m ≤ m' → ScriptOk n m' y → ScriptOk n lo (x ++ y)
  | [], [], lo, m', h, h1, h2 => by simp only [ScriptOk, List.append_nil] at *; omega
  | [], (s, e, z) :: y, lo, m', h, h1, h2 => by
    simp only [ScriptOk, List.nil_append] at *
    exact ⟨by omega, h2.2⟩
  | (s, e, z) :: x, y, lo, m', h, h1, h2 => ⟨h.1, h.2.1, ordered_append h.2.2 h1 h2⟩

/-- Replacements for things that come one after the other. -/
theorem scriptOk_flatMap {β : Type} {scr : β → Script} {lo hi : β → Nat} {n : Nat} : ∀ {l : List β} {a : Nat}, l.Pairwise (fun x y => hi x ≤ lo y) →
    (∀ x ∈ l, ScriptOk (hi x) (lo x) (scr x)) → (∀ x ∈ l, a ≤ lo x ∧ hi x ≤ n) → a ≤ n → ScriptOk n a (l.flatMap scr)
  | [], _, _, _, _, h => h
  | x :: l, a, hp, h1, h2, ha => by
    rw [List.flatMap_cons]
    rw [List.pairwise_cons] at hp
    have h3 : ScriptOk n (hi x) (l.flatMap scr) := scriptOk_flatMap hp.2 (fun y hy => h1 y (by simp [hy]))
      (fun y hy => ⟨hp.1 y hy, (h2 y (by simp [hy])).2⟩) (h2 x (by simp)).2
    have h4 : ScriptOk (hi x) a (scr x) := by
      have := h1 x (by simp)
      have hx := (h2 x (by simp)).1
      have hs := this
      revert this
      cases scr x with
      | nil => intro this; simp only [ScriptOk] at *; omega
      | cons z rest => obtain ⟨s, e, y⟩ := z; intro this; exact ⟨by have := this.1; omega, this.2⟩
    exact ordered_append h4 (Nat.le_refl _) h3

theorem buildWith_makes {β : Type} {r : Rope} (hr : r.Balanced) {step : Builder → β → Option Builder} {scr : β → Script} {l : List β}
    (h : ∀ x ∈ l, ∀ b, step b x = b.run (scr x)) (ho : ScriptOk r.text.length 0 (l.flatMap scr)) :
    Makes r.text (buildWith r l step) (l.flatMap scr) := by
  obtain ⟨b, h1, h2, h3, h4, -⟩ := C13_builder r.text _ ho
  refine ⟨b.build, ?_, h2, h3, h4⟩
  rw [buildWith, fold_scripts _ h, Rope.len_eq hr, h1]
  rfl

theorem buildWith_none {β : Type} {r : Rope} {step : Builder → β → Option Builder} {scr : β → Script} {l : List β}
    (h : ∀ x ∈ l, ∀ b, step b x = b.run (scr x)) (ho : ¬ Ordered 0 (l.flatMap scr)) : buildWith r l step = none := by
  rw [buildWith, fold_scripts _ h, run_none (by exact ho)]
  rfl

/-! ### Regions -/

theorem Valid.hi_le {r : Rope} {s : Selection} (h : Valid r s) {q : SelRegion} (hq : q ∈ s) : q.hi ≤ r.text.length := by
  obtain ⟨h1, h2⟩ := h.ends q hq
  have := boundary_le h1
  have := boundary_le h2
  simp only [SelRegion.hi]
  omega

theorem Valid.lo_hi {r : Rope} {s : Selection} (h : Valid r s) {q : SelRegion} (hq : q ∈ s) : CharBoundary r.text q.lo ∧ CharBoundary r.text q.hi :=
  (lo_hi_ends q).2 (h.ends q hq)

theorem Valid.scriptOk {r : Rope} {s : Selection} (h : Valid r s) {scr : SelRegion → Script} (h1 : ∀ q ∈ s, ScriptOk q.hi q.lo (scr q)) :
    ScriptOk r.text.length 0 (s.flatMap scr) :=
  scriptOk_flatMap (h.inv.imp (fun hab => hab.1)) h1 (fun _ hq => ⟨Nat.zero_le _, h.hi_le hq⟩) (Nat.zero_le _)

theorem interval_lo_hi (q : SelRegion) : Interval.new q.lo q.hi = some ⟨q.lo, q.hi⟩ := by
  simp [Interval.new, lo_le q]

theorem replaceIn_eq {b : Builder} {x y : Nat} (h : x ≤ y) (z : List UInt8) : replaceIn b x y z = b.run [(x, y, z)] := by
  rw [deltaRun_one]
  simp [replaceIn, Interval.new, h]

/-! ### What deletions leave -/

/-- The bytes of a list that starts at offset `k` whose offset satisfies `P`. -/
noncomputable def keptFrom (P : Nat → Prop) (l : List UInt8) (k : Nat) : List UInt8 :=
  open Classical in ((l.zipIdx k).filter (fun x => decide (P x.2))).map Prod.fst

theorem keptFrom_append (P : Nat → Prop) (x y : List UInt8) (k : Nat) : keptFrom P (x ++ y) k = keptFrom P x k ++ keptFrom P y (k + x.length) := by
  simp [keptFrom, List.zipIdx_append]

theorem keptFrom_all {P : Nat → Prop} : ∀ {l : List UInt8} {k : Nat}, (∀ i, k ≤ i → i < k + l.length → P i) → keptFrom P l k = l
  | [], _, _ => rfl
  | x :: l, k, h => by
    have ih := keptFrom_all (P := P) (l := l) (k := k + 1) (fun i h1 h2 => h i (by omega) (by simp only [List.length_cons]; omega))
    simp only [keptFrom] at ih
    have := h k (Nat.le_refl _) (by simp)
    simp [keptFrom, List.zipIdx_cons, this, ih]

theorem keptFrom_none {P : Nat → Prop} : ∀ {l : List UInt8} {k : Nat}, (∀ i, k ≤ i → i < k + l.length → ¬ P i) → keptFrom P l k = []
  | [], _, _ => rfl
  | x :: l, k, h => by
    have ih := keptFrom_none (P := P) (l := l) (k := k + 1) (fun i h1 h2 => h i (by omega) (by simp only [List.length_cons]; omega))
    simp only [keptFrom] at ih
    have := h k (Nat.le_refl _) (by simp)
    simp only [keptFrom, List.zipIdx_cons, List.filter_cons]
    rw [if_neg (by simpa using this)]
    exact ih

theorem replaced_kept {t : List UInt8} {P : Nat → Prop} : ∀ {script : Script} {lo : Nat}, ScriptOk t.length lo script → (∀ x ∈ script, x.2.2 = []) →
    (∀ i, lo ≤ i → (P i ↔ ∀ x ∈ script, ¬ (x.1 ≤ i ∧ i < x.2.1))) → replaced t lo script = keptFrom P (t.drop lo) lo
  | [], lo, _, _, h => by
    rw [replaced, keptFrom_all (fun i h1 _ => (h i h1).2 (by simp))]
  | (s, e, z) :: rest, lo, ho, hz, h => by
    obtain ⟨h1, h2, h3⟩ := ho
    have hz' : z = [] := hz (s, e, z) (by simp)
    subst hz'
    have hle : ∀ {m : Nat} {sc : Script}, ScriptOk t.length m sc → m ≤ t.length := by
      intro m sc
      induction sc generalizing m with
      | nil => exact id
      | cons a l ih => obtain ⟨a1, a2, a3⟩ := a; intro h; have := ih h.2.2; have := h.1; have := h.2.1; omega
    have hstart : ∀ {m : Nat} {sc : Script}, ScriptOk t.length m sc → ∀ x ∈ sc, m ≤ x.1 := by
      intro m sc
      induction sc generalizing m with
      | nil => simp
      | cons a l ih =>
        obtain ⟨a1, a2, a3⟩ := a
        intro h x hx
        rcases List.mem_cons.1 hx with rfl | hx
        · exact h.1
        · have := ih h.2.2 x hx; have := h.1; have := h.2.1; omega
    have he := hle h3
    have key : t.drop lo = (t.take s).drop lo ++ ((t.take e).drop s ++ t.drop e) := by
      have a1 : (t.take e).drop s ++ t.drop e = t.drop s := by
        conv => rhs; rw [← List.take_append_drop e t, List.drop_append_of_le_length (by rw [List.length_take]; omega)]
      have a2 : (t.take s).drop lo ++ t.drop s = t.drop lo := by
        conv => rhs; rw [← List.take_append_drop s t, List.drop_append_of_le_length (by rw [List.length_take]; omega)]
      rw [a1, a2]
    have l1 : ((t.take s).drop lo).length = s - lo := by simp; omega
    have l2 : ((t.take e).drop s).length = e - s := by simp; omega
    rw [replaced, key, keptFrom_append, keptFrom_append, l1, l2]
    rw [keptFrom_all, keptFrom_none, show lo + (s - lo) + (e - s) = e by omega, List.nil_append, List.append_nil]
    · congr 1
      apply replaced_kept h3 (fun x hx => hz x (by simp [hx]))
      intro i hi
      rw [h i (by omega)]
      constructor
      · intro hh x hx; exact hh x (by simp [hx])
      · intro hh x hx
        rcases List.mem_cons.1 hx with rfl | hx
        · simp only; omega
        · exact hh x hx
    · intro i i1 i2
      rw [h i (by omega)]
      intro hh
      exact hh (s, e, []) (by simp) ⟨by show s ≤ i; omega, by show i < e; rw [l2] at i2; omega⟩
    · intro i i1 i2
      rw [l1] at i2
      rw [h i i1]
      intro x hx
      rcases List.mem_cons.1 hx with rfl | hx
      · simp only; omega
      · have := hstart h3 x hx; omega

theorem replaced_kept_zero {t : List UInt8} {P : Nat → Prop} {script : Script} (h : ScriptOk t.length 0 script) (hz : ∀ x ∈ script, x.2.2 = [])
    (hP : ∀ i, P i ↔ ∀ x ∈ script, ¬ (x.1 ≤ i ∧ i < x.2.1)) : replaced t 0 script = kept t P := by
  rw [replaced_kept h hz (fun i _ => hP i)]
  rfl

end EditOps

end Xi
