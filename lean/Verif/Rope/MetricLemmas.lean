import Verif.Rope.Metric
import Verif.Rope.TreeBuild

/-!
# Lemmas on metrics: what `measure` and `convert_metrics` compute
-/

namespace Xi

variable {L I α : Type} [TreeLeaf L I] [LeafSpec L I α]

/-- `M` counts something additive: `μ` is what it says about a text. -/
structure Counts (M : Metric L I) (μ : List α → Nat) : Prop where
  nil : μ [] = 0
  append : ∀ a b, μ (a ++ b) = μ a + μ b
  leaf : ∀ l : L, LeafSpec.ok l → M.measure (TreeLeaf.computeInfo l) (TreeLeaf.len l) = μ (LeafSpec.content l)
  accumulate : ∀ i j m n, M.measure (TreeLeaf.accumulate L i j) (m + n) = M.measure i m + M.measure j n

namespace Node

theorem measure_fold {M : Metric L I} {μ : List α → Nat} (hM : Counts M μ) (rest : List (Node L I)) :
    ∀ (i : I) (n : Nat), M.measure ((rest.map Node.info).foldl (TreeLeaf.accumulate L) i) (n + (rest.map Node.len).sum) =
      M.measure i n + (rest.map (Node.measure M)).sum := by
  induction rest with
  | nil => intro i n; simp
  | cons c rest ih =>
    intro i n
    simp only [List.map_cons, List.foldl_cons, List.sum_cons]
    rw [← Nat.add_assoc, ih, hM.accumulate]
    simp only [Node.measure]; omega

theorem WF.measure {M : Metric L I} {μ : List α → Nat} (hM : Counts M μ) :
    ∀ {h : Nat} {n : Node L I}, n.WF h → n.measure M = μ n.text
  | 0, .leaf _ _ _, hw => by
    simp only [WF] at hw
    obtain ⟨h1, rfl, rfl⟩ := hw
    rw [text_leaf]; exact hM.leaf _ h1
  | 0, .internal _ _ _ _, hw => by simp [WF] at hw
  | _ + 1, .leaf _ _ _, hw => by simp [WF] at hw
  | h + 1, .internal _ _ _ cs, hw => by
    simp only [WF] at hw
    obtain ⟨-, -, -, hc, rfl, c, rest, rfl, rfl⟩ := hw
    have key : ∀ l : List (Node L I), (∀ c ∈ l, c.WF h ∧ c.isOkChild = true) → (l.map (Node.measure M)).sum = μ (textList l) := by
      intro l hl
      induction l with
      | nil => simp [hM.nil]
      | cons c cs ih =>
        have h1 := ((hl c (by simp)).1).measure hM
        have h2 := ih (fun c hx => hl c (by simp [hx]))
        simp [h1, h2, hM.append]
    rw [text_internal, ← key _ hc]
    have := measure_fold hM rest c.info c.len
    simp only [List.map_cons, List.sum_cons]
    exact this

theorem kids_measure {M : Metric L I} {μ : List α → Nat} (hM : Counts M μ) {h : Nat} {c : Node L I} {cs : List (Node L I)}
    (hk : Kids h (c :: cs)) : c.measure M = μ c.text := (hk c (by simp)).1.measure hM

theorem convertScan_some {M1 M2 : Metric L I} {μ1 μ2 : List α → Nat} (h1 : Counts M1 μ1) (h2 : Counts M2 μ2)
    {f h : Nat} (cs : List (Node L I)) : ∀ (m1 m2 : Nat), Kids h cs → cs ≠ [] → m1 < μ1 (textList cs) + f → (0 < f → 0 < m1) →
      ∃ c pre post m1', convertScan M1 M2 f cs m1 m2 = (some c, m1', m2 + μ2 (textList pre)) ∧ cs = pre ++ c :: post ∧
        m1 = μ1 (textList pre) + m1' ∧ m1' < μ1 c.text + f ∧ (0 < f → 0 < m1') := by
  induction cs with
  | nil => intro m1 m2 hk hne; simp at hne
  | cons c cs ih =>
    intro m1 m2 hk _ hm hf
    have e1 := kids_measure h1 hk
    have e2 := kids_measure h2 hk
    simp only [convertScan, e1, e2]
    by_cases hlt : m1 < μ1 c.text + f
    · rw [if_pos hlt]
      exact ⟨c, [], cs, m1, by simp [h2.nil], rfl, by simp [h1.nil], hlt, hf⟩
    · rw [if_neg hlt]
      rw [textList_cons, h1.append] at hm
      have hne : cs ≠ [] := by
        rintro rfl
        rw [textList_nil, h1.nil] at hm; omega
      obtain ⟨d, pre, post, m1', g1, g2, g3, g4, g5⟩ := ih (m1 - μ1 c.text) (m2 + μ2 c.text) (hk.sub (by simp +contextual)) hne
        (by omega) (by omega)
      refine ⟨d, c :: pre, post, m1', ?_, by simp [g2], ?_, g4, g5⟩
      · rw [g1, textList_cons, h2.append, Nat.add_assoc]
      · rw [textList_cons, h1.append]; omega

/-- What `convert_metrics` does when the place looked for is inside the tree. -/
theorem convertLoop_spec {M1 M2 : Metric L I} {μ1 μ2 : List α → Nat} (h1 : Counts M1 μ1) (h2 : Counts M2 μ2) {f : Nat} :
    ∀ (h fuel : Nat) (n : Node L I) (m1 m2 : Nat), n.WF h → h ≤ fuel → m1 < μ1 n.text + f → (0 < f → 0 < m1) →
      ∃ l pre post m1', LeafSpec.ok l ∧ LeafSpec.valid L pre ∧ LeafSpec.valid L post ∧
        n.text = pre ++ (LeafSpec.content l ++ post) ∧ m1 = μ1 pre + m1' ∧
        m1' < μ1 (LeafSpec.content l) + f ∧ (0 < f → 0 < m1') ∧
        convertLoop M1 M2 f fuel n m1 m2 =
          (M1.toBaseUnits l m1').bind (fun base => (M2.fromBaseUnits l base).bind (fun x => some (m2 + μ2 pre + x))) := by
  intro h
  induction h with
  | zero =>
    intro fuel n m1 m2 hw _ hm hf
    obtain ⟨l, rfl, ho⟩ := hw.leafNode
    rw [text_fromLeaf] at hm ⊢
    refine ⟨l, [], [], m1, ho, LeafSpec.valid_nil, LeafSpec.valid_nil, by simp, by simp [h1.nil], hm, hf, ?_⟩
    simp [fromLeaf, convertLoop, h2.nil]
  | succ h ih =>
    intro fuel n m1 m2 hw hfu hm hf
    obtain ⟨len, info, cs, rfl, hc2, -, hk⟩ := hw.kids
    rw [text_internal] at hm ⊢
    obtain ⟨c, pre, post, m1', g1, g2, g3, g4, g5⟩ := convertScan_some h1 h2 cs m1 m2 hk (by rintro rfl; simp at hc2) hm hf
    have hval : ∀ l : List (Node L I), (∀ x ∈ l, x ∈ cs) → LeafSpec.valid L (textList l) := by
      intro l hl
      induction l with
      | nil => exact LeafSpec.valid_nil
      | cons x l ih =>
        rw [textList_cons]
        exact LeafSpec.valid_append (hk x (hl x (by simp))).1.valid (ih (fun y hy => hl y (by simp [hy])))
    have hpre : LeafSpec.valid L (textList pre) := hval pre (by rw [g2]; simp +contextual)
    have hpost : LeafSpec.valid L (textList post) := hval post (by rw [g2]; simp +contextual)
    obtain ⟨fuel, rfl⟩ : ∃ k, fuel = k + 1 := ⟨fuel - 1, by omega⟩
    obtain ⟨l, p, q, m', k1, k2, k3, k4, k5, k6, k7, k8⟩ := ih fuel c m1' (m2 + μ2 (textList pre)) (hk c (by simp [g2])).1 (by omega) g4 g5
    refine ⟨l, textList pre ++ p, q ++ textList post, m', k1, LeafSpec.valid_append hpre k2, LeafSpec.valid_append k3 hpost, ?_, ?_,
      k6, k7, ?_⟩
    · rw [g2, textList_append, textList_cons, k4]; simp
    · rw [h1.append]; omega
    · simp only [convertLoop, g1, k8, h2.append]
      simp only [Nat.add_assoc]

/-- At the end of the text, with a metric that cannot fragment, the scan falls
through and starts again from the front. -/
theorem convertScan_none {M1 M2 : Metric L I} {μ1 μ2 : List α → Nat} (h1 : Counts M1 μ1) (h2 : Counts M2 μ2)
    {h : Nat} (cs : List (Node L I)) : ∀ (m1 m2 : Nat), Kids h cs → μ1 (textList cs) ≤ m1 →
      convertScan M1 M2 0 cs m1 m2 = (none, m1 - μ1 (textList cs), m2 + μ2 (textList cs)) := by
  induction cs with
  | nil => intro m1 m2 hk _; simp [convertScan, h1.nil, h2.nil]
  | cons c cs ih =>
    intro m1 m2 hk hm
    have e1 := kids_measure h1 hk
    have e2 := kids_measure h2 hk
    rw [textList_cons, h1.append] at hm
    simp only [convertScan, e1, e2]
    rw [if_neg (by omega), ih _ _ (hk.sub (by simp +contextual)) (by omega), textList_cons, h1.append, h2.append]
    rw [Nat.sub_sub, Nat.add_assoc]

/-- `convert_metrics` with a source metric that can fragment. -/
theorem convertMetrics_fragment {M1 M2 : Metric L I} {μ1 μ2 : List α → Nat} (h1 : Counts M1 μ1) (h2 : Counts M2 μ2)
    (hf : M1.canFragment = true) {n : Node L I} (hn : n.Balanced) {m1 : Nat} (hpos : 0 < m1) (hm : m1 ≤ μ1 n.text) :
    ∃ l pre post m1', LeafSpec.ok l ∧ LeafSpec.valid L pre ∧ LeafSpec.valid L post ∧
        n.text = pre ++ (LeafSpec.content l ++ post) ∧ m1 = μ1 pre + m1' ∧
        m1' ≤ μ1 (LeafSpec.content l) ∧ 0 < m1' ∧
        convertMetrics M1 M2 n m1 =
          (M1.toBaseUnits l m1').bind (fun base => (M2.fromBaseUnits l base).bind (fun x => some (μ2 pre + x))) := by
  obtain ⟨h, hw⟩ := hn
  obtain ⟨l, pre, post, m', k1, k2, k3, k4, k5, k6, k7, k8⟩ :=
    convertLoop_spec h1 h2 (f := 1) h (h + m1 + 1) n m1 0 hw (by omega) (by omega) (by omega)
  refine ⟨l, pre, post, m', k1, k2, k3, k4, k5, by omega, k7 (by omega), ?_⟩
  simp only [convertMetrics, hf, if_true, hw.height_eq, k8, Nat.zero_add]
  rw [if_neg (by omega)]

/-- `convert_metrics` with a source metric that cannot fragment, before the end. -/
theorem convertMetrics_atomic {M1 M2 : Metric L I} {μ1 μ2 : List α → Nat} (h1 : Counts M1 μ1) (h2 : Counts M2 μ2)
    (hf : M1.canFragment = false) {n : Node L I} (hn : n.Balanced) {m1 : Nat} (hpos : 0 < m1) (hm : m1 < μ1 n.text) :
    ∃ l pre post m1', LeafSpec.ok l ∧ LeafSpec.valid L pre ∧ LeafSpec.valid L post ∧
        n.text = pre ++ (LeafSpec.content l ++ post) ∧ m1 = μ1 pre + m1' ∧
        m1' < μ1 (LeafSpec.content l) ∧
        convertMetrics M1 M2 n m1 =
          (M1.toBaseUnits l m1').bind (fun base => (M2.fromBaseUnits l base).bind (fun x => some (μ2 pre + x))) := by
  obtain ⟨h, hw⟩ := hn
  obtain ⟨l, pre, post, m', k1, k2, k3, k4, k5, k6, k7, k8⟩ :=
    convertLoop_spec h1 h2 (f := 0) h (h + m1 + 1) n m1 0 hw (by omega) (by omega) (by omega)
  refine ⟨l, pre, post, m', k1, k2, k3, k4, k5, by omega, ?_⟩
  simp only [convertMetrics, hf, hw.height_eq]
  rw [if_neg (by omega)]
  simpa using k8

/-- … and at the end: an empty prefix of some leaf, or all of the only leaf. -/
theorem convertMetrics_end {M1 M2 : Metric L I} {μ1 μ2 : List α → Nat} (h1 : Counts M1 μ1) (h2 : Counts M2 μ2)
    (hf : M1.canFragment = false) {n : Node L I} (hn : n.Balanced) (hpos : 0 < μ1 n.text) :
    (∃ l, LeafSpec.ok l ∧ n.text = LeafSpec.content l ∧ convertMetrics M1 M2 n (μ1 n.text) =
      (M1.toBaseUnits l (μ1 n.text)).bind (fun base => M2.fromBaseUnits l base)) ∨
    (∃ l pre post, LeafSpec.ok l ∧ n.text = pre ++ (LeafSpec.content l ++ post) ∧ μ1 pre = 0 ∧ 0 < μ1 (LeafSpec.content l) ∧
      convertMetrics M1 M2 n (μ1 n.text) =
        (M1.toBaseUnits l 0).bind (fun base => (M2.fromBaseUnits l base).bind (fun x => some (μ2 n.text + μ2 pre + x)))) := by
  obtain ⟨h, hw⟩ := hn
  cases h with
  | zero =>
    left
    obtain ⟨l, rfl, ho⟩ := hw.leafNode
    rw [text_fromLeaf] at hpos ⊢
    refine ⟨l, ho, rfl, ?_⟩
    simp only [convertMetrics, hf, fromLeaf, convertLoop]
    rw [if_neg (by omega)]
    simp
  | succ h =>
    right
    obtain ⟨len, info, cs, rfl, hc2, -, hk⟩ := hw.kids
    have hw' := hw
    generalize hn : Node.internal (h + 1) len info cs = n at hpos hw
    obtain ⟨l, pre, post, m', k1, k2, k3, k4, k5, k6, k7, k8⟩ :=
      convertLoop_spec h1 h2 (f := 0) (h + 1) (h + 1 + μ1 n.text) n 0 (μ2 n.text) hw (by omega) (by omega) (by omega)
    have hm' : m' = 0 := by omega
    subst hm'
    refine ⟨l, pre, post, k1, k4, by omega, by omega, ?_⟩
    rw [← k8]
    simp only [convertMetrics, hf]
    rw [if_neg (by omega), hw.height_eq]
    have ht : n.text = textList cs := by rw [← hn, text_internal]
    conv => lhs; rw [← hn]; rw [text_internal]
    simp only [convertLoop, Bool.false_eq_true, if_false]
    rw [convertScan_none h1 h2 cs _ _ hk (Nat.le_refl _)]
    simp only [Nat.sub_self, Nat.zero_add, hn, ht]

end Node

end Xi
