import Verif.Spec.Cursor
import Verif.Rope.CursorLemmas
import Verif.Rope.MetricLemmas

/-!
# Lemmas on cursors: searching for boundaries
-/

namespace Xi

variable {L I α : Type} [TreeLeaf L I] [LeafSpec L I α]

/-- `M` searches, in leaves, for the places where `Bd` holds; `μ` is what it
measures. -/
structure Finds (M : Metric L I) (μ : List α → Nat) (Bd : List α → Nat → Prop) : Prop where
  counts : Counts M μ
  inner : ∀ {a c b : List α} {k : Nat}, LeafSpec.valid L a → LeafSpec.valid L c → LeafSpec.valid L b → 0 < k → k ≤ c.length →
    (Bd (a ++ (c ++ b)) (a.length + k) ↔ Bd c k)
  start : M.canFragment = true → ∀ t, ¬ Bd t 0
  ends : M.canFragment = false → ∀ {a b : List α}, LeafSpec.valid L a → LeafSpec.valid L b → Bd (a ++ b) a.length
  boundary : ∀ {l : L} {o : Nat}, LeafSpec.ok l → o ≤ (LeafSpec.content l).length →
    ∃ r, M.isBoundary l o = some r ∧ (r = true ↔ Bd (LeafSpec.content l) o)
  prev : ∀ {l : L} {o : Nat}, LeafSpec.ok l → 0 < o → o ≤ (LeafSpec.content l).length →
    ∃ r, M.prev l o = some r ∧ IsPrev (Bd (LeafSpec.content l)) o r
  next : ∀ {l : L} {o : Nat}, LeafSpec.ok l → o ≤ (LeafSpec.content l).length →
    (M.canFragment = false → Bd (LeafSpec.content l) o) →
    ∃ r, M.next l o = some r ∧ IsNext (Bd (LeafSpec.content l)) (LeafSpec.content l).length o r
  zero : ∀ {l : L}, LeafSpec.ok l → (μ (LeafSpec.content l) = 0 ↔
    ∀ k, 0 < k → k ≤ (LeafSpec.content l).length → ¬ Bd (LeafSpec.content l) k)

/-- The text of a sequence of leaves. -/
def joined (ls : List L) : List α := ls.flatMap LeafSpec.content

@[simp] theorem joined_nil : joined ([] : List L) = ([] : List α) := rfl
theorem joined_cons (l : L) (ls : List L) : joined (l :: ls) = LeafSpec.content l ++ joined ls := by simp [joined]
theorem joined_append (a b : List L) : joined (a ++ b) = joined a ++ joined b := by simp [joined]
theorem joined_length (a : List L) : (joined a).length = lenOf a := rfl

theorem joined_valid {ls : List L} (h : ∀ l ∈ ls, LeafSpec.ok l) : LeafSpec.valid L (joined ls) := by
  induction ls with
  | nil => exact LeafSpec.valid_nil
  | cons l ls ih =>
    rw [joined_cons]
    exact LeafSpec.valid_append (LeafSpec.valid_content (h l (by simp))) (ih (fun x hx => h x (by simp [hx])))

variable {M : Metric L I} {μ : List α → Nat} {Bd : List α → Nat → Prop}

/-- A place in a leaf and the same place in the text. -/
theorem Finds.global (hM : Finds M μ Bd) {pre post : List L} {l : L} (ho : ∀ x ∈ pre ++ l :: post, LeafSpec.ok x) {k : Nat}
    (h0 : 0 < k) (hk : k ≤ (LeafSpec.content l).length) :
    Bd (joined (pre ++ l :: post)) (lenOf pre + k) ↔ Bd (LeafSpec.content l) k := by
  have e : joined (pre ++ l :: post) = joined pre ++ (LeafSpec.content l ++ joined post) := by rw [joined_append, joined_cons]
  rw [e, ← joined_length]
  exact hM.inner (joined_valid (fun x hx => ho x (by simp [hx]))) (LeafSpec.valid_content (ho l (by simp)))
    (joined_valid (fun x hx => ho x (by simp [hx]))) h0 hk

/-- No boundary in a sequence of leaves without any. -/
theorem Finds.none_in (hM : Finds M μ Bd) {mid : List L} : ∀ {pre post : List L}, (∀ x ∈ pre ++ (mid ++ post), LeafSpec.ok x) →
    μ (joined mid) = 0 → ∀ k, lenOf pre < k → k ≤ lenOf pre + lenOf mid → ¬ Bd (joined (pre ++ (mid ++ post))) k := by
  induction mid with
  | nil => intro pre post _ _ k h1 h2; simp at h2; omega
  | cons l mid ih =>
    intro pre post ho h0 k h1 h2
    rw [joined_cons, hM.counts.append] at h0
    rw [lenOf_cons] at h2
    by_cases hk : k ≤ lenOf pre + (LeafSpec.content l).length
    · have e : k = lenOf pre + (k - lenOf pre) := by omega
      have := hM.global (pre := pre) (l := l) (post := mid ++ post) (by simpa using ho) (k := k - lenOf pre) (by omega) (by omega)
      rw [← e] at this
      rw [List.cons_append, this]
      exact (hM.zero (ho l (by simp))).1 (by omega) _ (by omega) (by omega)
    · have := ih (pre := pre ++ [l]) (post := post) (by simpa using ho) (by omega) k
        (by rw [lenOf_append, lenOf_cons, lenOf_nil]; omega) (by rw [lenOf_append, lenOf_cons, lenOf_nil]; omega)
      simpa using this

namespace Cursor

theorem At.oks {c : Cursor L I} {pre post : List L} {l : L} (h : c.At pre l post) : ∀ x ∈ pre ++ l :: post, LeafSpec.ok x := by
  obtain ⟨n, hw⟩ := h.balanced
  rw [← h.leaves]; exact leaf_ok hw

theorem At.joined {c : Cursor L I} {pre post : List L} {l : L} (h : c.At pre l post) : c.root.text = joined (pre ++ l :: post) := by
  rw [Node.text, h.leaves]; rfl

theorem At.global {c : Cursor L I} {pre post : List L} {l : L} (h : c.At pre l post) (hM : Finds M μ Bd) {k : Nat} (h0 : 0 < k)
    (hk : k ≤ (LeafSpec.content l).length) : Bd c.root.text (lenOf pre + k) ↔ Bd (LeafSpec.content l) k := by
  rw [h.joined]; exact hM.global h.oks h0 hk

/-- The start of a leaf is a boundary of metrics that cannot fragment. -/
theorem At.start {c : Cursor L I} {pre post : List L} {l : L} (h : c.At pre l post) (hM : Finds M μ Bd)
    (hf : M.canFragment = false) : Bd c.root.text (lenOf pre) := by
  rw [h.joined, joined_append, ← joined_length]
  exact hM.ends hf (joined_valid (fun x hx => h.oks x (by simp [hx]))) (joined_valid (fun x hx => h.oks x (by simp at hx ⊢; exact .inr hx)))

theorem zero_boundary (hM : Finds M μ Bd) (hf : M.canFragment = false) {l : L} (ho : LeafSpec.ok l) : Bd (LeafSpec.content l) 0 := by
  have := hM.ends hf (a := []) (b := LeafSpec.content l) LeafSpec.valid_nil (LeafSpec.valid_content ho)
  simpa using this

/-- `is_boundary`. -/
theorem isBoundary_spec {c : Cursor L I} {pre post : List L} {l : L} (hM : Finds M μ Bd) (h : c.Valid pre l post) :
    ∃ c' r, c.isBoundary M = some (c', r) ∧ (r = true ↔ Bd c.root.text c.position) ∧ c'.Valid pre l post ∧
      c'.root = c.root ∧ c'.position = c.position := by
  have ha := h.toAt
  have hlo := h.lo
  have hhi : c.position - lenOf pre ≤ (LeafSpec.content l).length := by rcases h.hi with h1 | ⟨-, h1⟩ <;> omega
  unfold isBoundary
  simp only [ha.leaf]
  by_cases h1 : c.position = c.offsetOfLeaf ∧ M.canFragment = false
  · rw [if_pos h1]
    refine ⟨c, true, rfl, ?_, h, rfl, rfl⟩
    rw [h1.1, ha.off]
    simp [ha.start hM h1.2]
  · rw [if_neg h1]
    by_cases h2 : c.position = 0 ∨ c.position > c.offsetOfLeaf
    · rw [if_pos h2, if_pos (by rw [ha.off]; exact hlo)]
      obtain ⟨r, e1, e2⟩ := hM.boundary (o := c.position - lenOf pre) ha.ok hhi
      refine ⟨c, r, by simp [ha.off, e1], ?_, h, rfl, rfl⟩
      rw [e2]
      by_cases h3 : lenOf pre < c.position
      · have := ha.global hM (k := c.position - lenOf pre) (by omega) hhi
        rw [show lenOf pre + (c.position - lenOf pre) = c.position by omega] at this
        rw [this]
      · rw [ha.off] at h1 h2
        have h0 : c.position = 0 := by omega
        have hp : lenOf pre = 0 := by omega
        have hf : M.canFragment = true := by
          rcases hc : M.canFragment with _ | _
          · exact absurd ⟨by omega, hc⟩ h1
          · rfl
        rw [h0, hp]
        simp [hM.start hf]
    · rw [if_neg h2]
      rw [ha.off] at h1 h2
      have hp : c.position = lenOf pre := by omega
      have hf : M.canFragment = true := by
        rcases hc : M.canFragment with _ | _
        · exact absurd ⟨hp, hc⟩ h1
        · rfl
      obtain ⟨pre', m, rfl⟩ : ∃ pre' m, pre = pre' ++ [m] := by
        have hne : pre ≠ [] := by rintro rfl; simp at hp; omega
        exact ⟨pre.dropLast, pre.getLast hne, (List.dropLast_concat_getLast hne).symm⟩
      obtain ⟨c1, g1, g2, g3, g4⟩ := prevLeaf_some ha
      obtain ⟨c2, k1, k2, k3, k4⟩ := nextLeaf_some g2
      have hm := ha.pos (.inl (by simp)) m (by simp)
      obtain ⟨r, e1, e2⟩ := hM.boundary (o := (LeafSpec.content m).length) g2.ok (by omega)
      refine ⟨c2, r, ?_, ?_, ⟨k2, by omega, ?_⟩, by rw [k3, g3], by rw [k4, hp]⟩
      · simp [g1, g2.len, e1, k1]
      · rw [e2]
        have := g2.global hM (k := (LeafSpec.content m).length) hm (Nat.le_refl _)
        rw [← this, g3, hp, lenOf_append, lenOf_cons, lenOf_nil]; simp
      · have := h.hi
        rw [hp] at this; rw [k4]; exact this

/-- `measure_leaf`: the measure of the leaves before the one that contains `pos`. -/
theorem measureScan_spec (hc : Counts M μ) {h : Nat} (cs : List (Node L I)) : ∀ (pos metric : Nat), Node.Kids h cs →
    pos < (textList cs).length → ∃ a c b, cs = a ++ c :: b ∧ (textList a).length ≤ pos ∧
      pos - (textList a).length < c.text.length ∧
      measureScan M cs pos metric = (some c, pos - (textList a).length, metric + μ (textList a)) := by
  induction cs with
  | nil => intro pos metric _ h; simp at h
  | cons c cs ih =>
    intro pos metric hk hp
    have e1 := (hk c (by simp)).1.len_eq
    have e2 := Node.kids_measure hc hk
    simp only [measureScan, e1, e2]
    by_cases hlt : pos < c.text.length
    · rw [if_pos hlt]
      exact ⟨[], c, cs, rfl, by simp, by simpa using hlt, by simp [hc.nil]⟩
    · rw [if_neg hlt]
      rw [textList_cons, List.length_append] at hp
      obtain ⟨a, d, b, g1, g2, g3, g4⟩ := ih (pos - c.text.length) (metric + μ c.text) (hk.sub (by simp +contextual)) (by omega)
      refine ⟨c :: a, d, b, by rw [g1]; rfl, ?_, ?_, ?_⟩
      · rw [textList_cons, List.length_append]; omega
      · rw [textList_cons, List.length_append]; omega
      · rw [g4, textList_cons, List.length_append, hc.append]
        simp only [Prod.mk.injEq, true_and]
        omega

theorem textList_flat (cs : List (Node L I)) : textList cs = joined (cs.flatMap Node.leaves) := by
  induction cs with
  | nil => rfl
  | cons c cs ih => rw [textList_cons, ih, List.flatMap_cons, joined_append]; rfl

theorem measureLoop_spec (hc : Counts M μ) (h : Nat) : ∀ (fuel : Nat) (n : Node L I) (pos metric : Nat), n.WF h → h ≤ fuel →
    pos < n.text.length → ∃ a l b, n.leaves = a ++ l :: b ∧ lenOf a ≤ pos ∧ pos < lenOf a + (LeafSpec.content l).length ∧
      measureLoop M fuel n pos metric = some (metric + μ (joined a)) := by
  induction h with
  | zero =>
    intro fuel n pos metric hw _ hp
    obtain ⟨l, rfl, -⟩ := hw.leafNode
    rw [Node.text_fromLeaf] at hp
    refine ⟨[], l, [], by simp [Node.fromLeaf, Node.leaves], by simp, by simpa using hp, ?_⟩
    cases fuel <;> simp [Node.fromLeaf, measureLoop, hc.nil]
  | succ h ih =>
    intro fuel n pos metric hw hf hp
    obtain ⟨fuel, rfl⟩ : ∃ k, fuel = k + 1 := ⟨fuel - 1, by omega⟩
    obtain ⟨len, info, cs, rfl, -, -, hk⟩ := hw.kids
    rw [text_internal] at hp
    obtain ⟨a, c, b, rfl, g2, g3, g4⟩ := measureScan_spec hc cs pos metric hk hp
    obtain ⟨a', l, b', k1, k2, k3, k4⟩ := ih fuel c (pos - (textList a).length) (metric + μ (textList a)) (hk c (by simp)).1 (by omega) g3
    refine ⟨a.flatMap Node.leaves ++ a', l, b' ++ b.flatMap Node.leaves, ?_, ?_, ?_, ?_⟩
    · rw [Node.leaves, leavesList_eq]; simp [k1]
    · rw [lenOf_append, ← length_textList]; omega
    · rw [lenOf_append, ← length_textList]; omega
    · simp only [measureLoop, g4, k4]
      rw [joined_append, hc.append, ← textList_flat, Nat.add_assoc]

theorem measureLeaf_spec {c : Cursor L I} {pre post : List L} {l : L} (hc : Counts M μ) (h : c.At pre l post)
    (hp : c.position = lenOf pre) (hne : 0 < (LeafSpec.content l).length) : c.measureLeaf M c.position = some (μ (joined pre)) := by
  obtain ⟨n, hw⟩ := h.balanced
  have hlen : c.position < c.root.text.length := by
    rw [← hw.len_eq, h.rootLen]; omega
  obtain ⟨a, l', b, g1, g2, g3, g4⟩ := measureLoop_spec hc n (c.root.height + c.position + 1) c.root c.position 0 hw
    (by rw [hw.height_eq]; omega) hlen
  rw [measureLeaf, g4, Nat.zero_add]
  rw [h.leaves] at g1
  have hpos : ∀ x ∈ pre ++ l :: post, 0 < (LeafSpec.content x).length := by
    by_cases hn : pre ≠ [] ∨ post ≠ []
    · exact h.pos hn
    · intro x hx
      simp at hn
      simp [hn] at hx
      subst hx; exact hne
  have := zipper_unique (p := c.position) g1 hpos (by omega) (by omega) g2 g3
  rw [this.1]

theorem descendMetricScan_spec (hc : Counts M μ) {h : Nat} (cs : List (Node L I)) : ∀ (i off m : Nat), Node.Kids h cs → cs ≠ [] → 0 < m →
    ∃ a c b, cs = a ++ c :: b ∧
      descendMetricScan M cs i off m = some (i + a.length, c, off + (textList a).length, m - μ (textList a)) ∧
      μ (textList a) < m ∧ (m ≤ μ (textList a) + μ c.text ∨ b = []) := by
  induction cs with
  | nil => intro i off m _ h; exact absurd rfl h
  | cons c cs ih =>
    intro i off m hk _ hm
    cases cs with
    | nil => exact ⟨[], c, [], rfl, by simp [descendMetricScan, hc.nil], by simp [hc.nil, hm], .inr rfl⟩
    | cons d cs =>
      have e := (hk c (by simp)).1.len_eq
      have e2 := Node.kids_measure hc hk
      simp only [descendMetricScan, e, e2]
      by_cases hge : μ c.text ≥ m
      · rw [if_pos hge]
        exact ⟨[], c, d :: cs, rfl, by simp [hc.nil], by simp [hc.nil, hm], .inl (by simp [hc.nil, hge])⟩
      · rw [if_neg hge]
        obtain ⟨a, x, b, h1, h2, h3, h4⟩ := ih (i + 1) (off + c.text.length) (m - μ c.text) (hk.sub (by simp +contextual)) (by simp) (by omega)
        refine ⟨c :: a, x, b, by rw [h1]; rfl, ?_, ?_, ?_⟩
        · rw [h2, textList_cons, List.length_append, List.length_cons, hc.append,
            show i + 1 + a.length = i + (a.length + 1) by omega, Nat.add_assoc off, Nat.sub_sub]
        · rw [textList_cons, hc.append]; omega
        · rw [textList_cons, hc.append]
          rcases h4 with h4 | h4
          · left; omega
          · exact .inr h4

theorem descendMetricLoop_spec (hc : Counts M μ) {m : Nat} {root : Node L I} (h : Nat) : ∀ (fuel : Nat) (n : Node L I) (es : List (Node L I × Nat))
    (cache : List (Option (Node L I × Nat))), h ≤ fuel → Up h n es root → cache.length = 4 →
    (∀ k, h ≤ k → k < 4 → cache[k]? = some es[k - h]?) → μ (joined (preLeaves es)) < m →
    (m ≤ μ (joined (preLeaves es)) + μ n.text ∨ postLeaves es = []) →
    ∃ l es', descendMetricLoop M fuel n (lenOf (preLeaves es)) (m - μ (joined (preLeaves es))) cache =
        some (l, lenOf (preLeaves es'), cacheOf es') ∧
      Up 0 (Node.fromLeaf l) es' root ∧ μ (joined (preLeaves es')) < m ∧
      (m ≤ μ (joined (preLeaves es')) + μ (LeafSpec.content l) ∨ postLeaves es' = []) := by
  induction h with
  | zero =>
    intro fuel n es cache _ hu hl hca h1 h2
    obtain ⟨l, rfl, -⟩ := hu.wf.leafNode
    refine ⟨l, es, ?_, hu, h1, ?_⟩
    · rw [cacheOf_ext hl (fun k hk => by simpa using hca k (by omega) hk)]
      cases fuel <;> simp [Node.fromLeaf, descendMetricLoop]
    · rwa [Node.text_fromLeaf] at h2
  | succ h ih =>
    intro fuel n es cache hf hu hl hca h1 h2
    obtain ⟨fuel, rfl⟩ : ∃ k, fuel = k + 1 := ⟨fuel - 1, by omega⟩
    obtain ⟨len, info, cs, rfl, hc2, -, hk⟩ := hu.wf.kids
    obtain ⟨a, c, b, rfl, g1, g2, g3⟩ := descendMetricScan_spec hc cs 0 (lenOf (preLeaves es)) (m - μ (joined (preLeaves es))) hk
      (by rintro rfl; simp at hc2) (by omega)
    obtain ⟨hu', e1, e2⟩ := up_child hu
    rw [length_textList, ← lenOf_append, ← e1, Nat.sub_sub, textList_flat, ← hc.append, ← joined_append, ← e1] at g1
    simp only [descendMetricLoop, g1, Option.bind_eq_bind, Option.bind_some, Nat.zero_add]
    refine ih fuel c _ _ (by omega) hu' (by rw [cacheAt_length, hl]) ?_ ?_ ?_
    · intro k hk1 hk4
      rw [cacheAt_get hl hk4]
      by_cases e : k = h
      · subst e; simp
      · rw [if_neg e, hca k (by omega) hk4]
        rw [show k - h = (k - (h + 1)) + 1 by omega, List.getElem?_cons_succ]
    · rw [e1, joined_append, hc.append, ← textList_flat]; omega
    · rw [e1, joined_append, hc.append, ← textList_flat]
      rcases g3 with g3 | g3
      · left; omega
      · subst g3
        rcases h2 with h2 | h2
        · left
          rw [text_internal, textList_append, hc.append] at h2
          simp at h2; omega
        · right; rw [e2, h2]; rfl

/-- `descend_metric`: the first leaf that reaches the measure, or the last leaf. -/
theorem descendMetric_spec {c : Cursor L I} (hc : Counts M μ) (hs : c.Shape) {m : Nat} (hm : 0 < m) :
    ∃ c' pre l post, c.descendMetric M m = some c' ∧ c'.At pre l post ∧ c'.root = c.root ∧ c'.position = lenOf pre ∧
      μ (joined pre) < m ∧ (m ≤ μ (joined pre) + μ (LeafSpec.content l) ∨ post = []) := by
  obtain ⟨h, hw⟩ := hs.balanced
  obtain ⟨l, es, h1, h2, h3, h4⟩ := descendMetricLoop_spec hc (m := m) (root := c.root) h c.root.height c.root [] c.cache
    (by rw [hw.height_eq]; omega) (.nil hw) hs.size
    (by intro k hk hk4; rw [hs.high k (by rw [hw.height_eq]; exact hk) hk4]; simp) (by simp [preLeaves, hc.nil, hm]) (.inr rfl)
  refine ⟨{ c with leaf := some l, position := lenOf (preLeaves es), offsetOfLeaf := lenOf (preLeaves es), cache := cacheOf es },
    preLeaves es, l, postLeaves es, ?_, ⟨rfl, rfl, es, h2, rfl, rfl, rfl⟩, rfl, rfl, h3, h4⟩
  have h0 : lenOf (preLeaves ([] : List (Node L I × Nat))) = 0 := by simp [preLeaves]
  have h0' : m - μ (joined (preLeaves ([] : List (Node L I × Nat)))) = m := by simp [preLeaves, hc.nil]
  rw [h0, h0'] at h1
  simp [descendMetric, h1]

/-- Where a search leaves the cursor: at the boundary found, or invalid. -/
structure Lands (c c' : Cursor L I) (r : Option Nat) : Prop where
  root : c'.root = c.root
  found : ∀ b, r = some b → c'.position = b ∧ ∃ pre l post, c'.Valid pre l post
  lost : r = none → c'.leaf = none ∧ c'.Shape

theorem not_fragment (hM : Finds M μ Bd) {t : List α} (h : Bd t 0) : M.canFragment = false := by
  rcases hc : M.canFragment with _ | _
  · rfl
  · exact absurd h (hM.start hc t)

/-- A place in a leaf, its start included, and the same place in the text. -/
theorem At.globalOf {c : Cursor L I} {pre post : List L} {l : L} (h : c.At pre l post) (hM : Finds M μ Bd) {k : Nat}
    (hk : k ≤ (LeafSpec.content l).length) (hb : Bd (LeafSpec.content l) k) : Bd c.root.text (lenOf pre + k) := by
  by_cases h0 : k = 0
  · subst h0
    exact h.start hM (not_fragment hM hb)
  · exact (h.global hM (by omega) hk).2 hb

theorem At.notGlobal {c : Cursor L I} {pre post : List L} {l : L} (h : c.At pre l post) (hM : Finds M μ Bd) {k : Nat}
    (h0 : lenOf pre < k) (hk : k ≤ lenOf pre + (LeafSpec.content l).length) (hb : ¬ Bd (LeafSpec.content l) (k - lenOf pre)) :
    ¬ Bd c.root.text k := by
  have := h.global hM (k := k - lenOf pre) (by omega) (by omega)
  rw [show lenOf pre + (k - lenOf pre) = k by omega] at this
  rwa [this]

theorem lastInsideLeaf_spec {c : Cursor L I} {pre post : List L} {l : L} {p : Nat} (hM : Finds M μ Bd) (h : c.At pre l post)
    (hne : 0 < (LeafSpec.content l).length) (hp : lenOf pre + (LeafSpec.content l).length ≤ p) (hlen : p ≤ c.root.len) :
    (∃ c' b, c.lastInsideLeaf M p = some (c', some b) ∧ b < p ∧ Bd c.root.text b ∧ lenOf pre ≤ b ∧
      (∀ k, b < k → k < p → k ≤ lenOf pre + (LeafSpec.content l).length → ¬ Bd c.root.text k) ∧ Lands c c' (some b)) ∨
    (c.lastInsideLeaf M p = some (c, none) ∧ M.canFragment = true ∧
      ∀ k, lenOf pre < k → k < p → k ≤ lenOf pre + (LeafSpec.content l).length → ¬ Bd c.root.text k) := by
  have hrest : ∀ (hend : ∀ k, k < p → k = lenOf pre + (LeafSpec.content l).length → ¬ Bd c.root.text k),
      c.lastInsideLeaf M p = (M.prev l (LeafSpec.content l).length).bind (fun r => match r with
        | none => some (c, none)
        | some o => some ({ c with position := c.offsetOfLeaf + o }, some (c.offsetOfLeaf + o))) := by
    intro hend
    obtain ⟨r, e1, e2⟩ := hM.boundary (o := (LeafSpec.content l).length) h.ok (Nat.le_refl _)
    simp only [lastInsideLeaf, h.leaf, Option.bind_eq_bind, Option.bind_some, h.len]
    by_cases hlt : c.offsetOfLeaf + (LeafSpec.content l).length < p
    · have he : M.isBoundary l (LeafSpec.content l).length = some false := by
        rw [h.off] at hlt
        have := hend _ hlt rfl
        rw [h.global hM hne (Nat.le_refl _), ← e2] at this
        rw [e1]; simpa using this
      rw [if_pos hlt, he]
      rcases M.prev l (LeafSpec.content l).length with _ | _ | r <;> rfl
    · rw [if_neg hlt]
      rcases M.prev l (LeafSpec.content l).length with _ | _ | r <;> rfl
  by_cases hb : lenOf pre + (LeafSpec.content l).length < p ∧ Bd (LeafSpec.content l) (LeafSpec.content l).length
  · left
    obtain ⟨r, e1, e2⟩ := hM.boundary (o := (LeafSpec.content l).length) h.ok (Nat.le_refl _)
    rw [e2.2 hb.2] at e1
    cases post with
    | nil => exfalso; rw [h.rootLen] at hlen; simp at hlen; omega
    | cons m post =>
      obtain ⟨c', g1, g2, g3, g4⟩ := nextLeaf_some h
      have hl : lenOf (pre ++ [l]) = lenOf pre + (LeafSpec.content l).length := by simp [lenOf_append, lenOf_cons]
      have hm := h.pos (.inr (by simp)) m (by simp)
      refine ⟨c', lenOf pre + (LeafSpec.content l).length, ?_, hb.1, h.globalOf hM (Nat.le_refl _) hb.2, by omega, by intros; omega,
        g3, ?_, by simp⟩
      · simp only [lastInsideLeaf, h.leaf, Option.bind_eq_bind, Option.bind_some, h.len]
        rw [h.off, if_pos hb.1, e1]
        simp [g1, g4, hl]
      · intro b hb'
        injection hb' with hb'
        subst hb'
        exact ⟨by rw [g4, hl], pre ++ [l], m, post, g2, by omega, .inl (by omega)⟩
  · have hend : ∀ k, k < p → k = lenOf pre + (LeafSpec.content l).length → ¬ Bd c.root.text k := by
      rintro k hk rfl hB
      exact hb ⟨hk, (h.global hM hne (Nat.le_refl _)).1 hB⟩
    rw [hrest hend]
    obtain ⟨r, e1, e2⟩ := hM.prev (o := (LeafSpec.content l).length) h.ok hne (Nat.le_refl _)
    rw [e1]
    cases r with
    | none =>
      right
      refine ⟨rfl, ?_, ?_⟩
      · rcases hc : M.canFragment with _ | _
        · exact absurd (zero_boundary hM hc h.ok) (e2 0 hne)
        · rfl
      · intro k h1 h2 h3 hB
        by_cases he : k = lenOf pre + (LeafSpec.content l).length
        · exact hend k h2 he hB
        · exact h.notGlobal hM h1 h3 (e2 _ (by omega)) hB
    | some o =>
      left
      obtain ⟨k1, k2, k3⟩ := e2
      refine ⟨_, _, rfl, ?_, ?_, ?_, ?_, rfl, ?_, by simp⟩
      · rw [h.off]; omega
      · rw [h.off]; exact h.globalOf hM (by omega) k2
      · rw [h.off]; omega
      · intro k h1 h2 h3 hB
        rw [h.off] at h1
        by_cases he : k = lenOf pre + (LeafSpec.content l).length
        · exact hend k h2 he hB
        · exact h.notGlobal hM (by omega) h3 (k3 _ (by omega) (by omega)) hB
      · intro b hb'
        injection hb' with hb'
        exact ⟨hb', pre, l, post, h.setPos _, by rw [h.off]; show lenOf pre ≤ lenOf pre + o; omega,
          .inl (by rw [h.off]; show lenOf pre + o < _; omega)⟩

theorem prevScanBack_spec {c : Cursor L I} {pre post : List L} {l : L} {p : Nat} (hM : Finds M μ Bd) (h : c.At pre l post)
    (hp0 : 0 < p) (hlo : lenOf pre ≤ p) (hlen : p ≤ c.root.len) (hnone : ∀ k, lenOf pre < k → k < p → ¬ Bd c.root.text k)
    (hf : M.canFragment = true ∨ p = lenOf pre) :
    ∃ c' r, c.prevScanBack M p = some (c', r) ∧ IsPrev (Bd c.root.text) p r ∧ Lands c c' r := by
  rcases List.eq_nil_or_concat pre with rfl | ⟨pre', m, rfl⟩
  · obtain ⟨c', g1, g2, g3, g4, -⟩ := prevLeaf_none h
    refine ⟨c', none, by simp [prevScanBack, g1], ?_, g4, by simp, fun _ => ⟨g2, g3⟩⟩
    intro k hk hB
    by_cases h0 : k = 0
    · subst h0
      have := not_fragment hM hB
      rw [this] at hf
      simp at hf; omega
    · exact hnone k (by simp; omega) hk hB
  · rw [List.concat_eq_append] at h hlo hf hnone
    obtain ⟨c1, g1, g2, g3, g4⟩ := prevLeaf_some h
    have hm := h.pos (.inl (by simp)) m (by simp)
    have hl : lenOf (pre' ++ [m]) = lenOf pre' + (LeafSpec.content m).length := by simp [lenOf_append, lenOf_cons]
    simp only [prevScanBack, g1, Option.bind_eq_bind, Option.bind_some, Option.isNone_some, Bool.false_eq_true, if_false]
    rcases lastInsideLeaf_spec (p := p) hM g2 hm (by omega) (by rw [g3]; exact hlen) with
      ⟨c2, b, k1, k2, k3, -, k4, k5⟩ | ⟨k1, k2, k3⟩
    · refine ⟨c2, some b, by simp [k1], ⟨k2, by rw [← g3]; exact k3, ?_⟩, by rw [k5.root, g3], k5.found, k5.lost⟩
      intro k h1 h2 hB
      by_cases hk : k ≤ lenOf pre' + (LeafSpec.content m).length
      · exact k4 k h1 h2 hk (by rw [g3]; exact hB)
      · exact hnone k (by omega) h2 hB
    · have hmeas := measureLeaf_spec hM.counts g2 g4 hm
      simp only [k1, Option.bind_some, Option.isSome_none, Bool.false_eq_true, if_false, hmeas]
      have hno : ∀ k, lenOf pre' < k → k < p → ¬ Bd c.root.text k := by
        intro k h1 h2 hB
        by_cases hk : k ≤ lenOf pre' + (LeafSpec.content m).length
        · exact k3 k h1 h2 hk (by rw [g3]; exact hB)
        · exact hnone k (by omega) h2 hB
      by_cases hz : μ (joined pre') = 0
      · rw [if_pos hz]
        refine ⟨_, none, rfl, ?_, g3, by simp, fun _ => ⟨rfl, g2.shape.1, g2.shape.2, g2.shape.3⟩⟩
        intro k hk hB
        by_cases h0 : k = 0
        · subst h0; exact hM.start k2 _ hB
        · by_cases hk' : k ≤ lenOf pre'
          · refine hM.none_in (pre := []) (mid := pre') (post := m :: l :: post) (by simpa using h.oks) hz k (by simp; omega) (by simpa using hk') ?_
            rw [h.joined] at hB
            simpa using hB
          · exact hno k (by omega) hk hB
      · rw [if_neg hz]
        obtain ⟨c2, pre2, l2, post2, d1, d2, d3, d4, d5, d6⟩ := descendMetric_spec (M := M) hM.counts g2.shape (m := μ (joined pre')) (by omega)
        simp only [d1, Option.bind_some]
        -- the leaf found is one of those before
        have e : pre2 ++ l2 :: post2 = pre' ++ m :: l :: post := by
          rw [← d2.leaves, d3, g2.leaves]
        have hmid : ∃ mid, pre' = pre2 ++ l2 :: mid ∧ post2 = mid ++ m :: l :: post := by
          rcases List.append_eq_append_iff.1 e with ⟨x, rfl, ex⟩ | ⟨x, rfl, ex⟩
          · cases x with
            | nil => exfalso; simp at d5
            | cons y x => simp at ex; obtain ⟨rfl, rfl⟩ := ex; exact ⟨x, rfl, rfl⟩
          · exfalso
            rw [joined_append, hM.counts.append] at d5; omega
        obtain ⟨mid, rfl, rfl⟩ := hmid
        have hμ : μ (joined (pre2 ++ l2 :: mid)) = μ (joined pre2) + (μ (LeafSpec.content l2) + μ (joined mid)) := by
          rw [joined_append, joined_cons, hM.counts.append, hM.counts.append]
        have hl2 : μ (LeafSpec.content l2) ≠ 0 ∧ μ (joined mid) = 0 := by
          rcases d6 with d6 | d6
          · omega
          · simp at d6
        have hlen2 : lenOf (pre2 ++ l2 :: mid) = lenOf pre2 + ((LeafSpec.content l2).length + lenOf mid) := by
          rw [lenOf_append, lenOf_cons]
        have hl2pos := d2.pos (.inr (by simp)) l2 (by simp)
        have hmidno : ∀ k, lenOf pre2 + (LeafSpec.content l2).length < k → k < p → ¬ Bd c.root.text k := by
          intro k h1 h2 hB
          by_cases hk : k ≤ lenOf (pre2 ++ l2 :: mid)
          · refine hM.none_in (pre := pre2 ++ [l2]) (mid := mid) (post := m :: l :: post) (by simpa using h.oks) hl2.2 k
              (by rw [lenOf_append, lenOf_cons, lenOf_nil]; omega) (by rw [lenOf_append, lenOf_cons, lenOf_nil]; omega) ?_
            have := h.joined
            simp only [List.append_assoc, List.cons_append, List.nil_append] at this ⊢
            rw [← this]; exact hB
          · exact hno k (by omega) h2 hB
        rcases lastInsideLeaf_spec (p := p) hM d2 hl2pos (by omega) (by rw [d3, g3]; exact hlen) with
          ⟨c3, b, n1, n2, n3, n4, n5, n6⟩ | ⟨-, -, n3⟩
        · refine ⟨c3, some b, n1, ⟨n2, by rw [← g3, ← d3]; exact n3, ?_⟩, by rw [n6.root, d3, g3], n6.found, n6.lost⟩
          intro k h1 h2 hB
          by_cases hk : k ≤ lenOf pre2 + (LeafSpec.content l2).length
          · exact n5 k h1 h2 hk (by rw [d3, g3]; exact hB)
          · exact hmidno k (by omega) h2 hB
        · exfalso
          apply hl2.1
          rw [hM.zero d2.ok]
          intro k h1 h2 hB
          refine n3 (lenOf pre2 + k) (by omega) (by omega) (by omega) ?_
          exact d2.globalOf hM h2 hB

/-- `prev` finds the nearest boundary before the position. -/
theorem prev_spec {c : Cursor L I} {pre post : List L} {l : L} (hM : Finds M μ Bd) (h : c.Valid pre l post) :
    ∃ c' r, c.prev M = some (c', r) ∧ IsPrev (Bd c.root.text) c.position r ∧ Lands c c' r := by
  have ha := h.toAt
  have hlo := h.lo
  have hhi : c.position - lenOf pre ≤ (LeafSpec.content l).length := by rcases h.hi with h1 | ⟨-, h1⟩ <;> omega
  have hlen : c.position ≤ c.root.len := by rw [ha.rootLen]; omega
  simp only [prev, ha.leaf]
  by_cases h0 : c.position = 0
  · rw [if_pos h0]
    refine ⟨_, none, rfl, ?_, rfl, by simp, fun _ => ⟨rfl, ha.shape.1, ha.shape.2, ha.shape.3⟩⟩
    intro k hk; omega
  · rw [if_neg h0, if_neg (by rw [ha.off]; omega), ha.off]
    by_cases h1 : c.position - lenOf pre > 0
    · rw [if_pos h1]
      obtain ⟨r, e1, e2⟩ := hM.prev (o := c.position - lenOf pre) ha.ok h1 hhi
      cases r with
      | some o =>
        obtain ⟨k1, k2, k3⟩ := e2
        refine ⟨{ c with position := lenOf pre + o }, some (lenOf pre + o), ?_, ⟨by omega, ha.globalOf hM (by omega) k2, ?_⟩, rfl, ?_, by simp⟩
        · simp [e1, ha.leaf, ha.off]
        · intro k h2 h3 hB
          exact ha.notGlobal hM (by omega) (by omega) (k3 (k - lenOf pre) (by omega) (by omega)) hB
        · intro b hb
          injection hb with hb
          exact ⟨hb, pre, l, post, ha.setPos _, by show lenOf pre ≤ lenOf pre + o; omega,
            .inl (by show lenOf pre + o < _; omega)⟩
      | none =>
        obtain ⟨c', r, g1, g2, g3⟩ := prevScanBack_spec hM ha (p := c.position) (by omega) hlo hlen (by
            intro k h2 h3 hB
            exact ha.notGlobal hM (by omega) (by omega) (e2 (k - lenOf pre) (by omega)) hB) (.inl (by
            rcases hc : M.canFragment with _ | _
            · exact absurd (zero_boundary hM hc ha.ok) (e2 0 h1)
            · rfl))
        exact ⟨c', r, by simp [e1, g1], g2, g3⟩
    · rw [if_neg h1]
      exact prevScanBack_spec hM ha (by omega) hlo hlen (by intro k h2 h3; omega) (.inr (by omega))

theorem end_boundary (hM : Finds M μ Bd) (hf : M.canFragment = false) {l : L} (ho : LeafSpec.ok l) :
    Bd (LeafSpec.content l) (LeafSpec.content l).length := by
  have := hM.ends hf (a := LeafSpec.content l) (b := []) (LeafSpec.valid_content ho) LeafSpec.valid_nil
  simpa using this

theorem nextInsideLeaf_spec {c : Cursor L I} {pre post : List L} {l : L} (hM : Finds M μ Bd) (h : c.At pre l post)
    (hlo : lenOf pre ≤ c.position) (hhi : c.position ≤ lenOf pre + (LeafSpec.content l).length)
    (hb : M.canFragment = false → Bd (LeafSpec.content l) (c.position - lenOf pre)) :
    (∃ c' b, c.nextInsideLeaf M = some (c', some b) ∧ c.position < b ∧ b ≤ c.root.len ∧ Bd c.root.text b ∧
      (∀ k, c.position < k → k < b → ¬ Bd c.root.text k) ∧ Lands c c' (some b)) ∨
    (c.nextInsideLeaf M = some (c, none) ∧ (M.canFragment = true ∨ c.position = lenOf pre + (LeafSpec.content l).length) ∧
      ∀ k, c.position < k → k ≤ lenOf pre + (LeafSpec.content l).length → ¬ Bd c.root.text k) := by
  obtain ⟨r, e1, e2⟩ := hM.next (o := c.position - lenOf pre) h.ok (by omega) hb
  simp only [nextInsideLeaf, h.leaf, Option.bind_eq_bind, Option.bind_some]
  rw [if_neg (by rw [h.off]; omega), h.off, e1]
  cases r with
  | none =>
    right
    refine ⟨rfl, ?_, ?_⟩
    · rcases hc : M.canFragment with _ | _
      · right
        rcases Nat.lt_or_ge c.position (lenOf pre + (LeafSpec.content l).length) with hlt | hge
        · exact absurd (end_boundary hM hc h.ok) (e2 _ (by omega) (Nat.le_refl _))
        · omega
      · exact .inl rfl
    · intro k h1 h2 hB
      exact h.notGlobal hM (by omega) h2 (e2 (k - lenOf pre) (by omega) (by omega)) hB
  | some o =>
    left
    obtain ⟨k1, k2, k3, k4⟩ := e2
    have hno : ∀ k, c.position < k → k < lenOf pre + o → ¬ Bd c.root.text k := by
      intro k h1 h2 hB
      exact h.notGlobal hM (by omega) (by omega) (k4 (k - lenOf pre) (by omega) (by omega)) hB
    have hB : Bd c.root.text (lenOf pre + o) := h.globalOf hM k2 k3
    have hrl := h.rootLen
    simp only [Option.bind_some, h.len]
    by_cases hend : o = (LeafSpec.content l).length ∧ lenOf pre + o ≠ c.root.len
    · rw [if_pos hend]
      cases post with
      | nil => exfalso; simp at hrl; omega
      | cons m post =>
        obtain ⟨c', g1, g2, g3, g4⟩ := nextLeaf_some h
        have hl : lenOf (pre ++ [l]) = lenOf pre + o := by simp [lenOf_append, lenOf_cons, hend.1]
        have hm := h.pos (.inr (by simp)) m (by simp)
        refine ⟨c', lenOf pre + o, by simp [g1, g4, hl], by omega, by omega, hB, hno, g3, ?_, by simp⟩
        intro b hb'
        injection hb' with hb'
        subst hb'
        exact ⟨by rw [g4, hl], pre ++ [l], m, post, g2, by omega, .inl (by omega)⟩
    · rw [if_neg hend]
      refine ⟨{ c with position := lenOf pre + o }, lenOf pre + o, by simp [h.leaf, h.off], by omega, by omega, hB, hno, rfl, ?_, by simp⟩
      intro b hb'
      injection hb' with hb'
      refine ⟨hb', pre, l, post, h.setPos _, by show lenOf pre ≤ lenOf pre + o; omega, ?_⟩
      show lenOf pre + o < _ ∨ (post = [] ∧ lenOf pre + o = _)
      by_cases ho : o = (LeafSpec.content l).length
      · right
        refine ⟨?_, by omega⟩
        cases post with
        | nil => rfl
        | cons m post =>
          have := h.pos (.inr (by simp)) m (by simp)
          rw [lenOf_cons] at hrl
          exfalso; apply hend; omega
      · left; omega

/-- `next` finds the nearest boundary after the position; a metric that cannot
fragment has to start at a boundary. -/
theorem next_spec_pos {c : Cursor L I} {pre post : List L} {l : L} (hM : Finds M μ Bd) (h : c.Valid pre l post)
    (hb : M.canFragment = false → Bd c.root.text c.position) :
    ∃ c' r, c.next M = some (c', r) ∧ IsNext (Bd c.root.text) c.root.text.length c.position r ∧ Lands c c' r ∧
      (r = none → c'.position = c.root.len) := by
  have ha := h.toAt
  have hlo := h.lo
  have hrl := ha.rootLen
  have htl : c.root.text.length = c.root.len := by
    obtain ⟨n, hw⟩ := ha.balanced
    exact hw.len_eq.symm
  rw [htl]
  simp only [next, ha.leaf]
  by_cases h0 : c.position ≥ c.root.len ∨ (some l).isNone = true
  · rw [if_pos h0]
    simp at h0
    refine ⟨_, none, rfl, ?_, ⟨rfl, by simp, fun _ => ⟨rfl, ha.shape.1, ha.shape.2, ha.shape.3⟩⟩, fun _ => ?_⟩
    · intro k hk hk2; omega
    · have := h.hi
      show c.position = c.root.len
      omega
  · rw [if_neg h0]
    simp at h0
    have hhi : c.position < lenOf pre + (LeafSpec.content l).length := by
      rcases h.hi with h1 | ⟨h1, h2⟩
      · exact h1
      · subst h1; simp at hrl; omega
    have hb' : M.canFragment = false → Bd (LeafSpec.content l) (c.position - lenOf pre) := by
      intro hc
      by_cases hp : c.position = lenOf pre
      · rw [hp, Nat.sub_self]; exact zero_boundary hM hc ha.ok
      · have := ha.global hM (k := c.position - lenOf pre) (by omega) (by omega)
        rw [show lenOf pre + (c.position - lenOf pre) = c.position by omega] at this
        exact this.1 (hb hc)
    rcases nextInsideLeaf_spec hM ha hlo (by omega) hb' with ⟨c', b, g1, g2, g3, g4, g5, g6⟩ | ⟨g1, g2, g3⟩
    · exact ⟨c', some b, by simp [g1], ⟨g2, g3, g4, g5⟩, g6, by simp⟩
    · have hf : M.canFragment = true := by
        rcases g2 with g2 | g2
        · exact g2
        · omega
      simp only [g1, Option.bind_eq_bind, Option.bind_some, Option.isSome_none, Bool.false_eq_true, if_false]
      cases post with
      | nil =>
        obtain ⟨c1, k1, k2, k3, k4, k5⟩ := nextLeaf_none ha
        refine ⟨c1, none, by simp [k1], ?_, ⟨k4, by simp, fun _ => ⟨k2, k3⟩⟩, fun _ => k5⟩
        intro k h1 h2
        exact g3 k h1 (by simp at hrl; omega)
      | cons m post =>
        obtain ⟨c1, k1, k2, k3, k4⟩ := nextLeaf_some ha
        have hl : lenOf (pre ++ [l]) = lenOf pre + (LeafSpec.content l).length := by simp [lenOf_append, lenOf_cons]
        have hm := ha.pos (.inr (by simp)) m (by simp)
        simp only [k1, Option.bind_some, Option.isNone_some, Bool.false_eq_true, if_false]
        rcases nextInsideLeaf_spec hM k2 (by omega) (by omega) (by simp [hf]) with ⟨c2, b, n1, n2, n3, n4, n5, n6⟩ | ⟨n1, -, n3⟩
        · refine ⟨c2, some b, by simp [n1], ⟨by omega, by rw [← k3]; exact n3, by rw [← k3]; exact n4, ?_⟩, ⟨by rw [n6.root, k3], n6.found, n6.lost⟩, by simp⟩
          intro k h1 h2 hB
          by_cases hk : k ≤ lenOf pre + (LeafSpec.content l).length
          · exact g3 k h1 hk hB
          · exact n5 k (by omega) h2 (by rw [k3]; exact hB)
        · have hmeas := measureLeaf_spec hM.counts k2 k4 hm
          obtain ⟨c2, pre2, l2, post2, d1, d2, d3, d4, d5, d6⟩ := descendMetric_spec (M := M) hM.counts k2.shape
            (m := μ (joined (pre ++ [l])) + 1) (by omega)
          simp only [n1, Option.bind_some, Option.isSome_none, Bool.false_eq_true, if_false, hmeas, d1]
          have hμm : μ (LeafSpec.content m) = 0 := by
            rw [hM.zero k2.ok]
            intro k h1 h2 hB
            exact n3 (lenOf (pre ++ [l]) + k) (by omega) (by omega) (k2.globalOf hM h2 hB)
          -- the leaf found is this one or a later one
          have e : pre2 ++ l2 :: post2 = (pre ++ [l]) ++ m :: post := by
            rw [← d2.leaves, d3, k2.leaves]
          have hmid : ∃ mid, pre2 = (pre ++ [l]) ++ mid ∧ mid ++ l2 :: post2 = m :: post := by
            rcases List.append_eq_append_iff.1 e with ⟨x, ex1, ex⟩ | ⟨x, rfl, ex⟩
            · cases x with
              | nil => exact ⟨[], by rw [ex1]; simp, by simpa using ex⟩
              | cons y x =>
                exfalso
                simp at ex
                obtain ⟨rfl, rfl⟩ := ex
                rw [ex1, joined_append, joined_cons, hM.counts.append, hM.counts.append] at d6
                rcases d6 with d6 | d6
                · omega
                · simp at d6
            · exact ⟨x, rfl, ex.symm⟩
          obtain ⟨mid, rfl, emid⟩ := hmid
          have hμmid : μ (joined mid) = 0 := by
            rw [joined_append (pre ++ [l]) mid, hM.counts.append] at d5; omega
          have hlen2 : lenOf ((pre ++ [l]) ++ mid) = lenOf pre + (LeafSpec.content l).length + lenOf mid := by
            rw [lenOf_append, hl]
          have hno : ∀ k, c.position < k → k ≤ lenOf pre + (LeafSpec.content l).length + lenOf mid → ¬ Bd c.root.text k := by
            intro k h1 h2 hB
            by_cases hk : k ≤ lenOf pre + (LeafSpec.content l).length
            · exact g3 k h1 hk hB
            · refine hM.none_in (pre := pre ++ [l]) (mid := mid) (post := l2 :: post2)
                (by rw [emid]; simpa using ha.oks) hμmid k (by omega) (by omega) ?_
              rw [emid]
              rw [ha.joined] at hB
              simpa using hB
          rcases nextInsideLeaf_spec hM d2 (by omega) (by omega) (by simp [hf]) with ⟨c3, b, p1, p2, p3, p4, p5, p6⟩ | ⟨p1, -, p3⟩
          · refine ⟨c3, some b, by simp [p1], ⟨by omega, by rw [← k3, ← d3]; exact p3, by rw [← k3, ← d3]; exact p4, ?_⟩,
              ⟨by rw [p6.root, d3, k3], p6.found, p6.lost⟩, by simp⟩
            intro k h1 h2 hB
            by_cases hk : k ≤ lenOf pre + (LeafSpec.content l).length + lenOf mid
            · exact hno k h1 hk hB
            · exact p5 k (by omega) h2 (by rw [d3, k3]; exact hB)
          · have hs := d2.shape
            refine ⟨{ c2 with position := c2.root.len, leaf := none }, none, by simp [p1], ?_,
              ⟨by rw [← k3, ← d3], by simp, fun _ => ⟨rfl, hs.1, hs.2, hs.3⟩⟩, fun _ => by rw [← k3, ← d3]⟩
            have hμl2 : μ (LeafSpec.content l2) = 0 := by
              rw [hM.zero d2.ok]
              intro k h1 h2 hB
              exact p3 (lenOf ((pre ++ [l]) ++ mid) + k) (by omega) (by omega) (d2.globalOf hM h2 hB)
            have hpost2 : post2 = [] := by
              rcases d6 with d6 | d6
              · rw [joined_append (pre ++ [l]) mid, hM.counts.append] at d6; omega
              · exact d6
            subst hpost2
            intro k h1 h2 hB
            by_cases hk : k ≤ lenOf pre + (LeafSpec.content l).length + lenOf mid
            · exact hno k h1 hk hB
            · refine p3 k (by omega) ?_ (by rw [d3, k3]; exact hB)
              have := d2.rootLen
              rw [d3, k3, lenOf_nil] at this
              omega

theorem next_spec {c : Cursor L I} {pre post : List L} {l : L} (hM : Finds M μ Bd) (h : c.Valid pre l post)
    (hb : M.canFragment = false → Bd c.root.text c.position) :
    ∃ c' r, c.next M = some (c', r) ∧ IsNext (Bd c.root.text) c.root.text.length c.position r ∧ Lands c c' r := by
  obtain ⟨c', r, h1, h2, h3, -⟩ := next_spec_pos hM h hb
  exact ⟨c', r, h1, h2, h3⟩

/-- `at_or_prev`. -/
theorem atOrPrev_spec {c : Cursor L I} {pre post : List L} {l : L} (hM : Finds M μ Bd) (h : c.Valid pre l post) :
    ∃ c' r, c.atOrPrev M = some (c', r) ∧ IsPrev (Bd c.root.text) (c.position + 1) r ∧ Lands c c' r := by
  obtain ⟨c1, b, h1, h2, h3, h4, h5⟩ := isBoundary_spec hM h
  simp only [atOrPrev, h1, Option.bind_eq_bind, Option.bind_some]
  cases b with
  | true =>
    refine ⟨c1, some c.position, by simp [h5], ⟨by omega, h2.1 rfl, by intros; omega⟩, h4, ?_, by simp⟩
    intro b hb
    injection hb with hb
    exact ⟨by rw [h5, hb], pre, l, post, h3⟩
  | false =>
    obtain ⟨c', r, g1, g2, g3⟩ := prev_spec hM h3
    rw [h4, h5] at g2
    refine ⟨c', r, by simp [g1], ?_, by rw [g3.root, h4], g3.found, g3.lost⟩
    have hn : ¬ Bd c.root.text c.position := by simpa using h2
    cases r with
    | none =>
      intro k hk hB
      by_cases e : k = c.position
      · subst e; exact hn hB
      · exact g2 k (by omega) hB
    | some b =>
      obtain ⟨k1, k2, k3⟩ := g2
      refine ⟨by omega, k2, ?_⟩
      intro k hk1 hk2 hB
      by_cases e : k = c.position
      · subst e; exact hn hB
      · exact k3 k hk1 (by omega) hB

/-- `at_or_next`, for metrics that can fragment. -/
theorem atOrNext_spec {c : Cursor L I} {pre post : List L} {l : L} (hM : Finds M μ Bd) (h : c.Valid pre l post)
    (hf : M.canFragment = true ∨ Bd c.root.text c.position) :
    ∃ c' r, c.atOrNext M = some (c', r) ∧ Lands c c' r ∧
      (Bd c.root.text c.position ∧ r = some c.position ∨
        ¬ Bd c.root.text c.position ∧ IsNext (Bd c.root.text) c.root.text.length c.position r) := by
  obtain ⟨c1, b, h1, h2, h3, h4, h5⟩ := isBoundary_spec hM h
  simp only [atOrNext, h1, Option.bind_eq_bind, Option.bind_some]
  cases b with
  | true =>
    refine ⟨c1, some c.position, by simp [h5], ⟨h4, ?_, by simp⟩, .inl ⟨h2.1 rfl, rfl⟩⟩
    intro b hb
    injection hb with hb
    exact ⟨by rw [h5, hb], pre, l, post, h3⟩
  | false =>
    have hn : ¬ Bd c.root.text c.position := by simpa using h2
    obtain ⟨c', r, g1, g2, g3⟩ := next_spec hM h3 (by
      intro hc; rw [hc] at hf; simp [hn] at hf)
    rw [h4, h5] at g2
    exact ⟨c', r, by simp [g1], ⟨by rw [g3.root, h4], g3.found, g3.lost⟩, .inr ⟨hn, g2⟩⟩

/-- The cursor, on the tree `r`, stands at `p`; or it is invalid. -/
def Stands (r : Node L I) (c : Cursor L I) : Option Nat → Prop
  | some p => c.root = r ∧ c.position = p ∧ ∃ pre l post, c.Valid pre l post
  | none => c.root = r ∧ c.leaf = none ∧ c.Shape

theorem Lands.stands {r : Node L I} {c c' : Cursor L I} {p : Option Nat} (h : Lands c c' p) (hr : c.root = r) :
    Stands r c' p := by
  cases p with
  | none => exact ⟨h.root.trans hr, h.lost rfl⟩
  | some p =>
    obtain ⟨h1, h2⟩ := h.found p rfl
    exact ⟨h.root.trans hr, h1, h2⟩

theorem Valid.position_le {c : Cursor L I} {pre post : List L} {l : L} (h : c.Valid pre l post) :
    c.position ≤ c.root.text.length := by
  have h1 := h.toAt.rootLen
  obtain ⟨n, hw⟩ := h.toAt.balanced
  have h2 := h.hi
  rw [← hw.len_eq]
  rcases h2 with h | ⟨-, h⟩ <;> omega

theorem iterAll_spec (hM : Finds M μ Bd) (hfr : M.canFragment = true) {r : Node L I} (fuel : Nat) : ∀ {c : Cursor L I} {p : Option Nat}, Stands r c p →
    r.text.length < fuel + p.getD r.text.length →
    ∃ l, Cursor.iterAll M fuel c = some l ∧ l.Pairwise (· < ·) ∧
      ∀ k, k ∈ l ↔ ∃ q, p = some q ∧ q < k ∧ k ≤ r.text.length ∧ Bd r.text k := by
  induction fuel with
  | zero =>
    intro c p hs hf
    cases p with
    | none => simp at hf
    | some p =>
      obtain ⟨rfl, rfl, pre, l, post, h⟩ := hs
      have := h.position_le
      simp at hf; omega
  | succ fuel ih =>
    intro c p hs hf
    cases p with
    | none =>
      refine ⟨[], ?_, by simp, by simp⟩
      simp [Cursor.iterAll, Cursor.next, hs.2.1]
    | some p =>
      obtain ⟨rfl, rfl, pre, l, post, h⟩ := hs
      obtain ⟨c', q, e1, e2, e3⟩ := Cursor.next_spec hM h (by rw [hfr]; intro h; cases h)
      have hst := e3.stands rfl
      cases q with
      | none =>
        refine ⟨[], by simp [Cursor.iterAll, e1], by simp, ?_⟩
        intro k
        simp only [List.not_mem_nil, Option.some.injEq, exists_eq_left', false_iff, not_and]
        exact e2 k
      | some b =>
        obtain ⟨b1, b2, b3, b4⟩ := e2
        obtain ⟨l, g1, g2, g3⟩ := ih hst (by simp at hf ⊢; omega)
        simp only [Option.some.injEq, exists_eq_left'] at g3
        refine ⟨b :: l, by simp [Cursor.iterAll, e1, g1], ?_, ?_⟩
        · rw [List.pairwise_cons]
          exact ⟨fun k hk => ((g3 k).1 hk).1, g2⟩
        · intro k
          simp only [List.mem_cons, g3, Option.some.injEq, exists_eq_left']
          constructor
          · rintro (rfl | ⟨h1, h2, h3⟩)
            · exact ⟨b1, b2, b3⟩
            · exact ⟨by omega, h2, h3⟩
          · rintro ⟨h1, h2, h3⟩
            rcases Nat.lt_trichotomy k b with hlt | rfl | hlt
            · exact absurd h3 (b4 k h1 hlt)
            · exact .inl rfl
            · exact .inr ⟨hlt, h2, h3⟩

end Cursor

end Xi
