import Verif.Rope.Cursor
import Verif.Rope.TreeLemmas

/-!
# Lemmas on cursors: moving between leaves

A path from a node up to the root is the list of pairs (node, index of the child),
from the bottom up, as in `Cursor::cache`.
-/

namespace Xi

variable {L I α : Type}

/-- The children of a node; none for a leaf. -/
def Node.kidsOf (n : Node L I) : List (Node L I) := n.getChildren.getD []

/-- The leaves to the left of a path. -/
def preLeaves : List (Node L I × Nat) → List L
  | [] => []
  | (n, j) :: es => preLeaves es ++ (n.kidsOf.take j).flatMap Node.leaves

/-- The leaves to the right of a path. -/
def postLeaves : List (Node L I × Nat) → List L
  | [] => []
  | (n, j) :: es => (n.kidsOf.drop (j + 1)).flatMap Node.leaves ++ postLeaves es

/-- The cache that goes with a path. -/
def cacheOf (es : List (Node L I × Nat)) : List (Option (Node L I × Nat)) :=
  [es[0]?, es[1]?, es[2]?, es[3]?]

theorem cacheOf_get {es : List (Node L I × Nat)} {k : Nat} (hk : k < 4) : (cacheOf es)[k]? = some es[k]? := by
  match k, hk with
  | 0, _ => rfl
  | 1, _ => rfl
  | 2, _ => rfl
  | 3, _ => rfl

theorem cacheOf_ext {cache : List (Option (Node L I × Nat))} {es : List (Node L I × Nat)} (hl : cache.length = 4)
    (h : ∀ k, k < 4 → cache[k]? = some es[k]?) : cache = cacheOf es := by
  apply List.ext_getElem?
  intro k
  by_cases hk : k < 4
  · rw [h k hk, cacheOf_get hk]
  · rw [List.getElem?_eq_none (by omega), List.getElem?_eq_none (by simp [cacheOf]; omega)]

theorem postLeaves_append (a b : List (Node L I × Nat)) : postLeaves (a ++ b) = postLeaves a ++ postLeaves b := by
  induction a with
  | nil => rfl
  | cons x a ih => obtain ⟨n, j⟩ := x; simp [postLeaves, ih]

theorem preLeaves_append (a b : List (Node L I × Nat)) : preLeaves (a ++ b) = preLeaves b ++ preLeaves a := by
  induction a with
  | nil => simp [preLeaves]
  | cons x a ih => obtain ⟨n, j⟩ := x; simp [preLeaves, ih]

variable [TreeLeaf L I] [LeafSpec L I α]

/-- `es` is the path from the node `n`, of height `h`, to the root. -/
inductive Up : Nat → Node L I → List (Node L I × Nat) → Node L I → Prop
  | nil {h : Nat} {n : Node L I} : n.WF h → Up h n [] n
  | cons {h len : Nat} {info : I} {cs : List (Node L I)} {j : Nat} {c : Node L I} {es : List (Node L I × Nat)}
      {root : Node L I} : cs[j]? = some c → (Node.internal (h + 1) len info cs).WF (h + 1) →
      Up (h + 1) (.internal (h + 1) len info cs) es root → Up h c ((.internal (h + 1) len info cs, j) :: es) root

/-- The length of the text of a sequence of leaves. -/
def lenOf (ls : List L) : Nat := (ls.flatMap LeafSpec.content).length

theorem lenOf_append (a b : List L) : lenOf (a ++ b) = lenOf a + lenOf b := by simp [lenOf]

@[simp] theorem lenOf_nil : lenOf ([] : List L) = 0 := rfl

theorem lenOf_cons (l : L) (b : List L) : lenOf (l :: b) = (LeafSpec.content l).length + lenOf b := by
  simp [lenOf]

namespace Up

theorem wf {h : Nat} {n root : Node L I} {es : List (Node L I × Nat)} (hu : Up h n es root) : n.WF h := by
  cases hu with
  | nil h => exact h
  | cons hj hw _ =>
    have := hw.kids
    obtain ⟨_, _, cs, e, _, _, hk⟩ := this
    cases e
    exact (hk _ (List.mem_of_getElem? hj)).1

theorem rootWf {h : Nat} {n root : Node L I} {es : List (Node L I × Nat)} (hu : Up h n es root) : root.WF (h + es.length) := by
  induction hu with
  | nil h => simpa using h
  | cons _ _ _ ih => rw [List.length_cons, Nat.add_right_comm, ← Nat.add_assoc] at *; exact ih

theorem leaves {h : Nat} {n root : Node L I} {es : List (Node L I × Nat)} (hu : Up h n es root) :
    root.leaves = preLeaves es ++ (n.leaves ++ postLeaves es) := by
  induction hu with
  | nil h => simp [preLeaves, postLeaves]
  | @cons h len info cs j c es root hj hw hu ih =>
    rw [ih]
    have hlt : j < cs.length := by
      rcases Nat.lt_or_ge j cs.length with h | h
      · exact h
      · rw [List.getElem?_eq_none h] at hj; cases hj
    have hs : cs = cs.take j ++ (c :: cs.drop (j + 1)) := by
      rw [List.getElem?_eq_getElem hlt] at hj
      injection hj with hj
      rw [← hj, List.getElem_cons_drop, List.take_append_drop]
    have e : (Node.internal (h + 1) len info cs).leaves =
        (cs.take j).flatMap Node.leaves ++ (c.leaves ++ (cs.drop (j + 1)).flatMap Node.leaves) := by
      rw [Node.leaves, leavesList_eq]
      conv => lhs; rw [hs]
      simp
    rw [e]
    simp [preLeaves, postLeaves, Node.kidsOf, Node.getChildren]

theorem single {h : Nat} {n root : Node L I} {es : List (Node L I × Nat)} (hu : Up h n es root) :
    ∀ k, k < es.length → ∃ len info cs j, es[k]? = some (.internal (h + k + 1) len info cs, j) ∧ j < cs.length := by
  induction hu with
  | nil => intro k hk; simp at hk
  | @cons h len info cs j c es root hj hw hu ih =>
    intro k hk
    cases k with
    | zero =>
      refine ⟨len, info, cs, j, rfl, ?_⟩
      rcases Nat.lt_or_ge j cs.length with h | h
      · exact h
      · rw [List.getElem?_eq_none h] at hj; cases hj
    | succ k =>
      obtain ⟨a, b, cs, j, e, f⟩ := ih k (by simpa using hk)
      refine ⟨a, b, cs, j, ?_, f⟩
      rw [List.getElem?_cons_succ, e, show h + 1 + k + 1 = h + (k + 1) + 1 by omega]

/-- A path can be cut at any point. -/
theorem cut {n root : Node L I} : ∀ {h : Nat} {a b : List (Node L I × Nat)} {x : Node L I × Nat}, Up h n (a ++ x :: b) root →
    ∃ len info cs j, x = (.internal (h + a.length + 1) len info cs, j) ∧ j < cs.length ∧
      (Node.internal (h + a.length + 1) len info cs).WF (h + a.length + 1) ∧
      Up (h + a.length + 1) (.internal (h + a.length + 1) len info cs) b root := by
  intro h a
  induction a generalizing h n with
  | nil =>
    intro b x hu
    cases hu with
    | @cons _ len info cs j c es root hj hw hu =>
      refine ⟨len, info, cs, j, rfl, ?_, hw, hu⟩
      rcases Nat.lt_or_ge j cs.length with h | h
      · exact h
      · rw [List.getElem?_eq_none h] at hj; cases hj
  | cons y a ih =>
    intro b x hu
    cases hu with
    | cons hj hw hu =>
      have := ih hu
      rw [List.length_cons, show h + (a.length + 1) + 1 = h + 1 + a.length + 1 by omega]
      exact this

end Up

theorem leaf_pos {h : Nat} {n : Node L I} (hw : n.WF h) (ho : n.isOkChild = true ∨ 0 < h) :
    ∀ l ∈ n.leaves, LeafSpec.ok l ∧ 0 < (LeafSpec.content l).length := by
  induction h generalizing n with
  | zero =>
    obtain ⟨l, rfl, hl⟩ := hw.leafNode
    intro m hm
    have : m = l := by simpa [Node.fromLeaf, Node.leaves] using hm
    subst this
    rcases ho with ho | ho
    · exact ⟨hl, LeafSpec.pos hl (by simpa [Node.fromLeaf, Node.isOkChild] using ho)⟩
    · omega
  | succ h ih =>
    obtain ⟨len, info, cs, rfl, _, _, hk⟩ := hw.kids
    intro m hm
    rw [Node.leaves, leavesList_eq, List.mem_flatMap] at hm
    obtain ⟨c, hc, hm⟩ := hm
    exact ih (hk c hc).1 (.inl (hk c hc).2) m hm

theorem leaf_ok {h : Nat} {n : Node L I} (hw : n.WF h) : ∀ l ∈ n.leaves, LeafSpec.ok l := by
  cases h with
  | zero =>
    obtain ⟨l, rfl, hl⟩ := hw.leafNode
    intro m hm
    have : m = l := by simpa [Node.fromLeaf, Node.leaves] using hm
    subst this; exact hl
  | succ h => exact fun l hl => (leaf_pos hw (.inr (by omega)) l hl).1

/-- Trees with more than one leaf have no empty leaf. -/
theorem leaves_pos {n : Node L I} (hb : n.Balanced) {a b : List L} {l : L} (e : n.leaves = a ++ l :: b) (hab : a ≠ [] ∨ b ≠ []) :
    ∀ l ∈ n.leaves, LeafSpec.ok l ∧ 0 < (LeafSpec.content l).length := by
  obtain ⟨h, hw⟩ := hb
  cases h with
  | zero =>
    obtain ⟨m, rfl, hl⟩ := hw.leafNode
    have : (Node.fromLeaf m : Node L I).leaves = [m] := by simp [Node.fromLeaf, Node.leaves]
    rw [this] at e
    exfalso
    have := congrArg List.length e
    simp at this
    rcases hab with h | h
    · have := List.length_pos_iff.2 h; omega
    · have := List.length_pos_iff.2 h; omega
  | succ h => exact leaf_pos hw (.inr (by omega))

/-- Two ways to single out a leaf agree if the places overlap. -/
theorem zipper_unique {a a' b b' : List L} {l l' : L} (e : a ++ l :: b = a' ++ l' :: b')
    (hp : ∀ x ∈ a ++ l :: b, 0 < (LeafSpec.content x).length) {p : Nat}
    (h1 : lenOf a ≤ p) (h2 : p < lenOf a + (LeafSpec.content l).length)
    (h3 : lenOf a' ≤ p) (h4 : p < lenOf a' + (LeafSpec.content l').length) : a = a' ∧ l = l' ∧ b = b' := by
  rcases List.append_eq_append_iff.1 e with ⟨x, rfl, ex⟩ | ⟨x, rfl, ex⟩
  · cases x with
    | nil => simp at ex; simp [ex]
    | cons y x =>
      simp at ex
      obtain ⟨rfl, rfl⟩ := ex
      rw [lenOf_append, lenOf_cons] at h3; omega
  · cases x with
    | nil => simp at ex; simp [ex]
    | cons y x =>
      simp at ex
      obtain ⟨rfl, rfl⟩ := ex
      rw [lenOf_append, lenOf_cons] at h1; omega

namespace Cursor

/-- The cursor is at the leaf `l`, with the leaves `pre` before it and `post`
after it. -/
structure At (c : Cursor L I) (pre : List L) (l : L) (post : List L) : Prop where
  leaf : c.leaf = some l
  off : c.offsetOfLeaf = lenOf pre
  path : ∃ es, Up 0 (Node.fromLeaf l) es c.root ∧ c.cache = cacheOf es ∧ preLeaves es = pre ∧ postLeaves es = post

/-- What holds of every cursor, valid or not: the cache has four places, and
those above the root are empty. -/
structure Shape (c : Cursor L I) : Prop where
  balanced : c.root.Balanced
  size : c.cache.length = 4
  high : ∀ k, c.root.height ≤ k → k < 4 → c.cache[k]? = some none

theorem At.leaves {c : Cursor L I} {pre post : List L} {l : L} (h : c.At pre l post) : c.root.leaves = pre ++ l :: post := by
  obtain ⟨es, hu, -, rfl, rfl⟩ := h.path
  rw [hu.leaves]; simp [Node.fromLeaf, Node.leaves]

theorem At.balanced {c : Cursor L I} {pre post : List L} {l : L} (h : c.At pre l post) : c.root.Balanced := by
  obtain ⟨es, hu, -, -⟩ := h.path
  exact ⟨_, hu.rootWf⟩

theorem At.shape {c : Cursor L I} {pre post : List L} {l : L} (h : c.At pre l post) : c.Shape := by
  obtain ⟨es, hu, hc, -⟩ := h.path
  refine ⟨h.balanced, by rw [hc]; rfl, ?_⟩
  intro k hk hk4
  rw [hu.rootWf.height_eq] at hk
  rw [hc, cacheOf_get hk4, List.getElem?_eq_none (by omega)]

theorem At.ok {c : Cursor L I} {pre post : List L} {l : L} (h : c.At pre l post) : LeafSpec.ok l := by
  obtain ⟨n, hw⟩ := h.balanced
  exact leaf_ok hw l (by rw [h.leaves]; simp)

theorem At.len {c : Cursor L I} {pre post : List L} {l : L} (h : c.At pre l post) :
    TreeLeaf.len l = (LeafSpec.content l).length := LeafSpec.len_eq h.ok

theorem At.text {c : Cursor L I} {pre post : List L} {l : L} (h : c.At pre l post) :
    c.root.text = pre.flatMap LeafSpec.content ++ (LeafSpec.content l ++ post.flatMap LeafSpec.content) := by
  rw [Node.text, h.leaves]; simp

theorem At.rootLen {c : Cursor L I} {pre post : List L} {l : L} (h : c.At pre l post) :
    c.root.len = lenOf pre + ((LeafSpec.content l).length + lenOf post) := by
  obtain ⟨n, hw⟩ := h.balanced
  rw [hw.len_eq, h.text]; simp [lenOf]

theorem At.pos {c : Cursor L I} {pre post : List L} {l : L} (h : c.At pre l post) (hn : pre ≠ [] ∨ post ≠ []) :
    ∀ x ∈ pre ++ l :: post, 0 < (LeafSpec.content x).length := by
  intro x hx
  exact (leaves_pos h.balanced h.leaves hn x (by rw [h.leaves]; exact hx)).2

theorem At.setPos {c : Cursor L I} {pre post : List L} {l : L} (h : c.At pre l post) (p : Nat) :
    At { c with position := p } pre l post := ⟨h.leaf, h.off, h.path⟩

theorem descendScan_spec {h : Nat} {p : Nat} (cs : List (Node L I)) : ∀ (i off : Nat), Node.Kids h cs → cs ≠ [] → off ≤ p →
    ∃ a c b, cs = a ++ c :: b ∧ descendScan p cs i off = some (i + a.length, c, off + (textList a).length) ∧
      off + (textList a).length ≤ p ∧ (p < off + (textList a).length + c.text.length ∨ b = []) := by
  induction cs with
  | nil => intro i off _ h; exact absurd rfl h
  | cons c cs ih =>
    intro i off hk _ hp
    cases cs with
    | nil => exact ⟨[], c, [], rfl, by simp [descendScan], by simpa using hp, .inr rfl⟩
    | cons d cs =>
      have e := (hk c (by simp)).1.len_eq
      simp only [descendScan]
      by_cases hgt : off + c.len > p
      · rw [if_pos hgt]
        exact ⟨[], c, d :: cs, rfl, by simp, by simpa using hp, .inl (by simp; omega)⟩
      · rw [if_neg hgt]
        obtain ⟨a, x, b, h1, h2, h3, h4⟩ := ih (i + 1) (off + c.len) (hk.sub (by simp +contextual)) (by simp) (by omega)
        refine ⟨c :: a, x, b, by rw [h1]; rfl, ?_, ?_, ?_⟩
        · rw [h2, textList_cons, List.length_append, List.length_cons, ← e]
          rw [show i + 1 + a.length = i + (a.length + 1) by omega, Nat.add_assoc off]
        · rw [textList_cons, List.length_append, ← e]; omega
        · rw [textList_cons, List.length_append, ← e]
          rcases h4 with h4 | h4
          · left; omega
          · exact .inr h4

theorem length_text {n : Node L I} : n.text.length = lenOf n.leaves := rfl

theorem length_textList {cs : List (Node L I)} : (textList cs).length = lenOf (cs.flatMap Node.leaves) := by
  induction cs with
  | nil => rfl
  | cons c cs ih => simp [lenOf_append, ← length_text, ih]

theorem cacheAt_get {cache : List (Option (Node L I × Nat))} {h k : Nat} {x : Node L I × Nat} (hl : cache.length = 4) (hk : k < 4) :
    (cacheAt cache (h + 1) x)[k]? = if k = h then some (some x) else cache[k]? := by
  unfold cacheAt
  simp only [Nat.add_sub_cancel, cursorCacheSize]
  by_cases h4 : h < 4
  · rw [if_pos h4, List.getElem?_set]
    by_cases e : h = k
    · subst e; simp [hl, h4]
    · rw [if_neg e, if_neg (fun h => e h.symm)]
  · rw [if_neg h4, if_neg (by omega)]

theorem cacheAt_length {cache : List (Option (Node L I × Nat))} {h : Nat} {x : Node L I × Nat} :
    (cacheAt cache h x).length = cache.length := by
  unfold cacheAt; split <;> simp

theorem up_child {h len : Nat} {info : I} {a b : List (Node L I)} {c root : Node L I} {es : List (Node L I × Nat)}
    (hu : Up (h + 1) (.internal (h + 1) len info (a ++ c :: b)) es root) :
    Up h c ((.internal (h + 1) len info (a ++ c :: b), a.length) :: es) root ∧
    preLeaves ((Node.internal (h + 1) len info (a ++ c :: b), a.length) :: es) = preLeaves es ++ a.flatMap Node.leaves ∧
    postLeaves ((Node.internal (h + 1) len info (a ++ c :: b), a.length) :: es) = b.flatMap Node.leaves ++ postLeaves es := by
  refine ⟨Up.cons (by simp) hu.wf hu, ?_, ?_⟩
  · simp [preLeaves, Node.kidsOf, Node.getChildren]
  · simp [postLeaves, Node.kidsOf, Node.getChildren]

theorem descendLoop_spec {p : Nat} {root : Node L I} (h : Nat) : ∀ (fuel : Nat) (n : Node L I) (es : List (Node L I × Nat))
    (cache : List (Option (Node L I × Nat))), h ≤ fuel → Up h n es root → cache.length = 4 →
    (∀ k, h ≤ k → k < 4 → cache[k]? = some es[k - h]?) → lenOf (preLeaves es) ≤ p →
    (p < lenOf (preLeaves es) + n.text.length ∨ postLeaves es = []) →
    ∃ l es', descendLoop p fuel n (lenOf (preLeaves es)) cache = some (l, lenOf (preLeaves es'), cacheOf es') ∧
      Up 0 (Node.fromLeaf l) es' root ∧ lenOf (preLeaves es') ≤ p ∧
      (p < lenOf (preLeaves es') + (LeafSpec.content l).length ∨ postLeaves es' = []) := by
  induction h with
  | zero =>
    intro fuel n es cache _ hu hl hc h1 h2
    obtain ⟨l, rfl, -⟩ := hu.wf.leafNode
    refine ⟨l, es, ?_, hu, h1, ?_⟩
    · rw [cacheOf_ext hl (fun k hk => by simpa using hc k (by omega) hk)]
      cases fuel <;> simp [Node.fromLeaf, descendLoop]
    · rwa [Node.text_fromLeaf] at h2
  | succ h ih =>
    intro fuel n es cache hf hu hl hc h1 h2
    obtain ⟨fuel, rfl⟩ : ∃ k, fuel = k + 1 := ⟨fuel - 1, by omega⟩
    obtain ⟨len, info, cs, rfl, hc2, -, hk⟩ := hu.wf.kids
    obtain ⟨a, c, b, rfl, g1, g2, g3⟩ := descendScan_spec (p := p) cs 0 (lenOf (preLeaves es)) hk (by rintro rfl; simp at hc2) h1
    obtain ⟨hu', e1, e2⟩ := up_child hu
    rw [length_textList, ← lenOf_append] at g1 g2 g3
    rw [← e1] at g1 g2 g3
    simp only [descendLoop, g1, Option.bind_eq_bind, Option.bind_some, Nat.zero_add]
    refine ih fuel c _ _ (by omega) hu' (by rw [cacheAt_length, hl]) ?_ g2 ?_
    · intro k hk1 hk4
      rw [cacheAt_get hl hk4]
      by_cases e : k = h
      · subst e; simp
      · rw [if_neg e, hc k (by omega) hk4]
        rw [show k - h = (k - (h + 1)) + 1 by omega, List.getElem?_cons_succ]
    · rcases g3 with g3 | g3
      · exact .inl g3
      · subst g3
        rcases h2 with h2 | h2
        · left
          rw [text_internal, textList_append, List.length_append] at h2
          rw [e1, lenOf_append, ← length_textList]
          simp at h2; omega
        · right; rw [e2, h2]; rfl

/-- `descend` on a cursor of a balanced tree: it finds the leaf at the position. -/
theorem descend_spec {c : Cursor L I} (hs : c.Shape) :
    ∃ c' pre l post, c.descend = some c' ∧ c'.At pre l post ∧ c'.root = c.root ∧ c'.position = c.position ∧
      lenOf pre ≤ c.position ∧ (c.position < lenOf pre + (LeafSpec.content l).length ∨ post = []) := by
  obtain ⟨h, hw⟩ := hs.balanced
  obtain ⟨l, es, h1, h2, h3, h4⟩ := descendLoop_spec (p := c.position) (root := c.root) h c.root.height c.root [] c.cache
    (by rw [hw.height_eq]; omega) (.nil hw) hs.size
    (by intro k hk hk4; rw [hs.high k (by rw [hw.height_eq]; exact hk) hk4]; simp) (by simp [preLeaves]) (.inr rfl)
  refine ⟨{ c with leaf := some l, offsetOfLeaf := lenOf (preLeaves es), cache := cacheOf es }, preLeaves es, l, postLeaves es, ?_,
    ⟨rfl, rfl, es, h2, rfl, rfl, rfl⟩, rfl, rfl, h3, h4⟩
  have h0 : lenOf (preLeaves ([] : List (Node L I × Nat))) = 0 := by simp [preLeaves]
  rw [h0] at h1
  simp [descend, h1]

/-- The cursor is valid: the position is in the leaf, and at its end only at the
end of the tree (the comments at tree.rs:634, 645-648). -/
structure Valid (c : Cursor L I) (pre : List L) (l : L) (post : List L) : Prop extends c.At pre l post where
  lo : lenOf pre ≤ c.position
  hi : c.position < lenOf pre + (LeafSpec.content l).length ∨ (post = [] ∧ c.position = lenOf pre + (LeafSpec.content l).length)

theorem new_shape {n : Node L I} (hb : n.Balanced) {p : Nat} :
    Shape ⟨n, p, List.replicate cursorCacheSize none, none, 0⟩ :=
  ⟨hb, by simp, by intro k _ hk; rw [List.getElem?_replicate, if_pos hk]⟩

theorem valid_of_descend {c : Cursor L I} (hs : c.Shape) (hp : c.position ≤ c.root.text.length) :
    ∃ c' pre l post, c.descend = some c' ∧ c'.Valid pre l post ∧ c'.root = c.root ∧ c'.position = c.position := by
  obtain ⟨c', pre, l, post, h1, h2, h3, h4, h5, h6⟩ := descend_spec hs
  refine ⟨c', pre, l, post, h1, ⟨h2, by omega, ?_⟩, h3, h4⟩
  rw [h4]
  rcases h6 with h6 | h6
  · exact .inl h6
  · have := h2.text
    rw [h3] at this
    rw [this, h6] at hp
    simp only [List.length_append, List.flatMap_nil, List.length_nil] at hp
    have e : (pre.flatMap LeafSpec.content).length = lenOf pre := rfl
    rw [e] at hp
    rcases Nat.lt_or_ge c.position (lenOf pre + (LeafSpec.content l).length) with h | h
    · exact .inl h
    · exact .inr ⟨h6, by omega⟩

/-- `Cursor::new` at a place in the tree. -/
theorem new_spec {n : Node L I} (hb : n.Balanced) {p : Nat} (hp : p ≤ n.text.length) :
    ∃ c pre l post, Cursor.new n p = some c ∧ c.Valid pre l post ∧ c.root = n ∧ c.position = p :=
  valid_of_descend (new_shape hb) hp

/-- `Cursor::set` to a place in the tree. -/
theorem set_spec {c : Cursor L I} (hs : c.Shape) (hv : c.leaf = none ∨ ∃ pre l post, c.At pre l post) {p : Nat}
    (hp : p ≤ c.root.text.length) :
    ∃ c' pre l post, c.set p = some c' ∧ c'.Valid pre l post ∧ c'.root = c.root ∧ c'.position = p := by
  have hd := valid_of_descend (c := { c with position := p }) ⟨hs.balanced, hs.size, hs.high⟩ hp
  obtain ⟨root, q, cache, leaf, off⟩ := c
  unfold set
  rcases hv with hv | ⟨pre, l, post, hv⟩
  · simp only at hv
    subst hv; exact hd
  · have e1 := hv.leaf
    have e2 := hv.off
    simp only at e1 e2
    subst e1 e2
    simp only [hv.len]
    by_cases h : p ≥ lenOf pre ∧ p < lenOf pre + (LeafSpec.content l).length
    · rw [if_pos h]
      exact ⟨_, pre, l, post, rfl, ⟨hv.setPos p, h.1, .inl h.2⟩, rfl, rfl⟩
    · rw [if_neg h]
      exact hd

theorem fillFirst_spec {root : Node L I} (k : Nat) : ∀ (n : Node L I) (es : List (Node L I × Nat))
    (cache : List (Option (Node L I × Nat))), k ≤ 4 → Up k n es root → cache.length = 4 →
    (∀ m, k ≤ m → m < 4 → cache[m]? = some es[m - k]?) →
    ∃ l es', fillFirst k n cache = some (Node.fromLeaf l, cacheOf es') ∧ Up 0 (Node.fromLeaf l) es' root ∧
      n.leaves ++ postLeaves es = l :: postLeaves es' := by
  induction k with
  | zero =>
    intro n es cache _ hu hl hc
    obtain ⟨l, rfl, -⟩ := hu.wf.leafNode
    refine ⟨l, es, ?_, hu, by simp [Node.fromLeaf, Node.leaves]⟩
    rw [cacheOf_ext hl (fun k hk => by simpa using hc k (by omega) hk)]
    rfl
  | succ k ih =>
    intro n es cache h4 hu hl hc
    obtain ⟨len, info, cs, rfl, hc2, -, hk⟩ := hu.wf.kids
    obtain ⟨c, cs, rfl⟩ : ∃ c ds, cs = c :: ds := by cases cs with | nil => simp at hc2 | cons c ds => exact ⟨c, ds, rfl⟩
    obtain ⟨hu', e1, e2⟩ := up_child (a := []) (b := cs) (c := c) hu
    obtain ⟨l, es', g1, g2, g3⟩ := ih c _ (cache.set k (some (Node.internal (k + 1) len info (c :: cs), 0))) (by omega) hu' (by simp [hl]) (by
      intro m hm hm4
      rw [List.getElem?_set]
      by_cases e : k = m
      · subst e; simp [hl]; omega
      · rw [if_neg e, hc m (by omega) hm4, show m - k = (m - (k + 1)) + 1 by omega, List.getElem?_cons_succ])
    refine ⟨l, es', ?_, g2, ?_⟩
    · simp [fillFirst, Node.getChildren, g1]
    · rw [← g3]
      simp only [List.nil_append, List.length_nil] at e2
      rw [List.nil_append, List.length_nil, e2, Node.leaves, leavesList_eq]; simp

theorem fillLast_spec {root : Node L I} (k : Nat) : ∀ (n : Node L I) (es : List (Node L I × Nat))
    (cache : List (Option (Node L I × Nat))), k ≤ 4 → Up k n es root → cache.length = 4 →
    (∀ m, k ≤ m → m < 4 → cache[m]? = some es[m - k]?) →
    ∃ l es', fillLast k n cache = some (Node.fromLeaf l, cacheOf es') ∧ Up 0 (Node.fromLeaf l) es' root ∧
      preLeaves es ++ n.leaves = preLeaves es' ++ [l] := by
  induction k with
  | zero =>
    intro n es cache _ hu hl hc
    obtain ⟨l, rfl, -⟩ := hu.wf.leafNode
    refine ⟨l, es, ?_, hu, by simp [Node.fromLeaf, Node.leaves]⟩
    rw [cacheOf_ext hl (fun k hk => by simpa using hc k (by omega) hk)]
    rfl
  | succ k ih =>
    intro n es cache h4 hu hl hc
    obtain ⟨len, info, cs, rfl, hc2, -, hk⟩ := hu.wf.kids
    obtain ⟨cs, c, rfl⟩ : ∃ ds c, cs = ds ++ [c] := by
      refine ⟨cs.dropLast, cs.getLast (by rintro rfl; simp at hc2), ?_⟩
      rw [List.dropLast_concat_getLast]
    obtain ⟨hu', e1, e2⟩ := up_child (a := cs) (b := []) (c := c) hu
    obtain ⟨l, es', g1, g2, g3⟩ := ih c _ (cache.set k (some (Node.internal (k + 1) len info (cs ++ [c]), cs.length))) (by omega) hu' (by simp [hl]) (by
      intro m hm hm4
      rw [List.getElem?_set]
      by_cases e : k = m
      · subst e; simp [hl]; omega
      · rw [if_neg e, hc m (by omega) hm4, show m - k = (m - (k + 1)) + 1 by omega, List.getElem?_cons_succ])
    refine ⟨l, es', ?_, g2, ?_⟩
    · simp [fillLast, Node.getChildren, g1]
    · rw [← g3, e1, Node.leaves, leavesList_eq]; simp

theorem nextScan_spec {root : Node L I} {l : L} {es : List (Node L I × Nat)} (hu : Up 0 (Node.fromLeaf l) es root) (left : Nat) :
    ∀ (done rest : List (Node L I × Nat)), es = done ++ rest → done.length + left = 4 → postLeaves done = [] →
    (nextScan (cacheOf es) left done.length = some .missing ∧ postLeaves es = []) ∨
    (nextScan (cacheOf es) left done.length = some .exhausted) ∨
    (∃ l' es', nextScan (cacheOf es) left done.length = some (.found l' (cacheOf es')) ∧ Up 0 (Node.fromLeaf l') es' root ∧
      postLeaves es = l' :: postLeaves es') := by
  induction left with
  | zero => intro done rest _ _ _; exact .inr (.inl rfl)
  | succ left ih =>
    intro done rest e hlen hd
    have hi : done.length < 4 := by omega
    cases rest with
    | nil =>
      left
      refine ⟨?_, by rw [e]; simpa using hd⟩
      simp only [nextScan, cacheOf_get hi]
      rw [List.getElem?_eq_none (by rw [e]; simp)]
      rfl
    | cons x rest =>
      rw [e] at hu
      obtain ⟨len, info, cs, j, rfl, hj, hw, hu'⟩ := hu.cut
      have hx : (cacheOf es)[done.length]? = some (some (.internal (0 + done.length + 1) len info cs, j)) := by
        rw [cacheOf_get hi, e]; simp
      simp only [nextScan, hx, Option.bind_eq_bind, Option.bind_some, Node.getChildren]
      by_cases hlt : j + 1 < cs.length
      · rw [if_pos hlt]
        right; right
        have hs : cs = cs.take (j + 1) ++ cs[j + 1] :: cs.drop (j + 2) := by
          rw [List.getElem_cons_drop, List.take_append_drop]
        have hup : Up (0 + done.length) cs[j + 1] ((.internal (0 + done.length + 1) len info cs, j + 1) :: rest) root :=
          Up.cons (List.getElem?_eq_getElem hlt) hw hu'
        simp only [Nat.zero_add] at hup
        obtain ⟨l', es', g1, g2, g3⟩ := fillFirst_spec done.length _ _
          ((cacheOf es).set done.length (some (.internal (done.length + 1) len info cs, j + 1))) (by omega) hup (by simp [cacheOf]) (by
            intro m hm hm4
            rw [List.getElem?_set]
            by_cases e' : done.length = m
            · subst e'; simp [cacheOf, hi]
            · rw [if_neg e', cacheOf_get hm4, e, show m - done.length = (m - (done.length + 1)) + 1 by omega, List.getElem?_cons_succ,
                List.getElem?_append_right (by omega), show m - done.length = (m - (done.length + 1)) + 1 by omega,
                List.getElem?_cons_succ])
        refine ⟨l', es', ?_, g2, ?_⟩
        · simp only [List.getElem?_eq_getElem hlt, Option.bind_some, Nat.zero_add, g1, Node.fromLeaf, Node.getLeaf]; rfl
        · rw [e, postLeaves_append, hd, List.nil_append, ← g3]
          simp only [postLeaves, Node.kidsOf, Node.getChildren, Option.getD_some]
          rw [List.drop_eq_getElem_cons hlt, List.flatMap_cons, List.append_assoc]
      · rw [if_neg hlt]
        have := ih (done ++ [(.internal (0 + done.length + 1) len info cs, j)]) rest (by simp [e]) (by simp; omega) (by
          rw [postLeaves_append, hd]
          simp only [postLeaves, Node.kidsOf, Node.getChildren, Option.getD_some]
          rw [List.drop_eq_nil_of_le (by omega)]; rfl)
        simpa using this

theorem prevScan_spec {root : Node L I} {l : L} {es : List (Node L I × Nat)} (hu : Up 0 (Node.fromLeaf l) es root) (left : Nat) :
    ∀ (done rest : List (Node L I × Nat)), es = done ++ rest → done.length + left = 4 → preLeaves done = [] →
    (prevScan (cacheOf es) left done.length = some .missing ∧ preLeaves es = []) ∨
    (prevScan (cacheOf es) left done.length = some .exhausted) ∨
    (∃ l' es', prevScan (cacheOf es) left done.length = some (.found l' (cacheOf es')) ∧ Up 0 (Node.fromLeaf l') es' root ∧
      preLeaves es = preLeaves es' ++ [l']) := by
  induction left with
  | zero => intro done rest _ _ _; exact .inr (.inl rfl)
  | succ left ih =>
    intro done rest e hlen hd
    have hi : done.length < 4 := by omega
    cases rest with
    | nil =>
      left
      refine ⟨?_, by rw [e]; simpa using hd⟩
      simp only [prevScan, cacheOf_get hi]
      rw [List.getElem?_eq_none (by rw [e]; simp)]
      rfl
    | cons x rest =>
      rw [e] at hu
      obtain ⟨len, info, cs, j, rfl, hj, hw, hu'⟩ := hu.cut
      have hx : (cacheOf es)[done.length]? = some (some (.internal (0 + done.length + 1) len info cs, j)) := by
        rw [cacheOf_get hi, e]; simp
      simp only [prevScan, hx, Option.bind_eq_bind, Option.bind_some, Node.getChildren]
      by_cases hlt : j > 0
      · rw [if_pos hlt]
        right; right
        have hj1 : j - 1 < cs.length := by omega
        have hup : Up (0 + done.length) cs[j - 1] ((.internal (0 + done.length + 1) len info cs, j - 1) :: rest) root :=
          Up.cons (List.getElem?_eq_getElem hj1) hw hu'
        simp only [Nat.zero_add] at hup
        obtain ⟨l', es', g1, g2, g3⟩ := fillLast_spec done.length _ _
          ((cacheOf es).set done.length (some (.internal (done.length + 1) len info cs, j - 1))) (by omega) hup (by simp [cacheOf]) (by
            intro m hm hm4
            rw [List.getElem?_set]
            by_cases e' : done.length = m
            · subst e'; simp [cacheOf, hi]
            · rw [if_neg e', cacheOf_get hm4, e, show m - done.length = (m - (done.length + 1)) + 1 by omega, List.getElem?_cons_succ,
                List.getElem?_append_right (by omega), show m - done.length = (m - (done.length + 1)) + 1 by omega,
                List.getElem?_cons_succ])
        refine ⟨l', es', ?_, g2, ?_⟩
        · simp only [List.getElem?_eq_getElem hj1, Option.bind_some, Nat.zero_add, g1, Node.fromLeaf, Node.getLeaf]; rfl
        · rw [e, preLeaves_append, hd, List.append_nil, ← g3]
          simp only [preLeaves, Node.kidsOf, Node.getChildren, Option.getD_some]
          have : cs.take j = cs.take (j - 1) ++ [cs[j - 1]] := by
            rw [List.take_append_getElem]
            congr 1; omega
          rw [this, List.flatMap_append, List.append_assoc]; simp only [List.flatMap_cons, List.flatMap_nil, List.append_nil]
      · rw [if_neg hlt]
        have := ih (done ++ [(.internal (0 + done.length + 1) len info cs, j)]) rest (by simp [e]) (by simp; omega) (by
          rw [preLeaves_append, hd]
          have : j = 0 := by omega
          simp [preLeaves, this])
        simpa using this

/-- `next_leaf` when there is another leaf. -/
theorem nextLeaf_some {c : Cursor L I} {pre post : List L} {l m : L} (h : c.At pre l (m :: post)) :
    ∃ c', c.nextLeaf = some (c', some (m, 0)) ∧ c'.At (pre ++ [l]) m post ∧ c'.root = c.root ∧
      c'.position = lenOf (pre ++ [l]) := by
  obtain ⟨es, hu, hc, h1, h2⟩ := h.path
  have hp := lenOf_append pre [l]
  rw [lenOf_cons, lenOf_nil, Nat.add_zero] at hp
  have hscan := nextScan_spec hu 4 [] es rfl rfl rfl
  simp only [List.length_nil, ← hc] at hscan
  simp only [nextLeaf, h.leaf, cursorCacheSize]
  rcases hscan with ⟨_, hn⟩ | hs | ⟨l', es', hs, hu', hp'⟩
  · rw [h2] at hn; cases hn
  · simp only [hs, Option.bind_eq_bind, Option.bind_some, h.off, h.len, h.rootLen]
    have hpos := h.pos (.inr (by simp))
    rw [if_neg (by
      have := hpos m (by simp)
      rw [lenOf_cons]; omega)]
    obtain ⟨c', pre', l', post', g1, g2, g3, g4, g5, g6⟩ := descend_spec
      (c := { c with position := lenOf pre + (LeafSpec.content l).length }) ⟨h.shape.balanced, h.shape.size, h.shape.high⟩
    rw [h.off] at g1
    simp only at g3 g4 g5 g6
    have hz : pre ++ [l] = pre' ∧ m = l' ∧ post = post' := by
      have e : (pre ++ [l]) ++ m :: post = pre' ++ l' :: post' := by
        have := g2.leaves
        rw [g3, h.leaves] at this; simpa using this
      refine zipper_unique (p := lenOf pre + (LeafSpec.content l).length) e (by simpa using hpos) (by omega) ?_ g5 ?_
      · have := hpos m (by simp); omega
      · rcases g6 with g6 | g6
        · exact g6
        · subst g6
          have := congrArg lenOf e
          simp only [lenOf_append, lenOf_cons, lenOf_nil] at this
          have := hpos m (by simp)
          omega
    obtain ⟨rfl, rfl, rfl⟩ := hz
    refine ⟨c', ?_, g2, g3, by rw [g4, hp]⟩
    have hl : c.leaf = some l := h.leaf
    simp only [h.leaf] at g1
    simp [g1, getLeaf, g2.leaf, g2.off, g4, hp]
  · simp only [hs, Option.bind_eq_bind, Option.bind_some, h.off, h.len]
    rw [h2] at hp'
    injection hp' with e1 e2
    subst e1
    have hpre : preLeaves es' = pre ++ [l] := by
      have a := hu.leaves
      have b := hu'.leaves
      rw [a] at b
      simp only [Node.fromLeaf, Node.leaves, h1, h2, e2] at b
      have : (pre ++ [l]) ++ (m :: postLeaves es') = preLeaves es' ++ (m :: postLeaves es') := by simpa using b
      exact (List.append_cancel_right this).symm
    refine ⟨⟨c.root, lenOf pre + (LeafSpec.content l).length, cacheOf es', some m, lenOf pre + (LeafSpec.content l).length⟩, ?_, ⟨rfl, hp.symm, es', hu', rfl, hpre, e2.symm⟩, rfl, hp.symm⟩
    simp [getLeaf]

/-- `next_leaf` in the last leaf. -/
theorem nextLeaf_none {c : Cursor L I} {pre : List L} {l : L} (h : c.At pre l []) :
    ∃ c', c.nextLeaf = some (c', none) ∧ c'.leaf = none ∧ c'.Shape ∧ c'.root = c.root ∧ c'.position = c.root.len := by
  obtain ⟨es, hu, hc, h1, h2⟩ := h.path
  have hscan := nextScan_spec hu 4 [] es rfl rfl rfl
  simp only [List.length_nil, ← hc] at hscan
  have hs := h.shape
  have hp : lenOf pre + (LeafSpec.content l).length = c.root.len := by rw [h.rootLen]; simp
  refine ⟨{ c with position := lenOf pre + (LeafSpec.content l).length, leaf := none }, ?_, rfl, ⟨hs.1, hs.2, hs.3⟩, rfl, hp⟩
  simp only [nextLeaf, h.leaf, cursorCacheSize]
  rcases hscan with ⟨hs, _⟩ | hs | ⟨l', es', hs, hu', hp'⟩
  · simp [hs, h.off, h.len]
  · simp [hs, h.off, h.len, hp]
  · rw [h2] at hp'; cases hp'

/-- `prev_leaf` when there is a leaf before. -/
theorem prevLeaf_some {c : Cursor L I} {pre post : List L} {l m : L} (h : c.At (pre ++ [m]) l post) :
    ∃ c', c.prevLeaf = some (c', some (m, 0)) ∧ c'.At pre m (l :: post) ∧ c'.root = c.root ∧
      c'.position = lenOf pre := by
  obtain ⟨es, hu, hc, h1, h2⟩ := h.path
  have hp := lenOf_append pre [m]
  rw [lenOf_cons, lenOf_nil, Nat.add_zero] at hp
  have hpos := h.pos (.inl (by simp))
  have hm := hpos m (by simp)
  have hscan := prevScan_spec hu 4 [] es rfl rfl rfl
  simp only [List.length_nil, ← hc] at hscan
  simp only [prevLeaf, cursorCacheSize]
  rw [if_neg (by rw [h.off]; omega)]
  rcases hscan with ⟨_, hn⟩ | hs | ⟨l', es', hs, hu', hp'⟩
  · rw [h1] at hn; simp at hn
  · simp only [hs, Option.bind_eq_bind, Option.bind_some]
    obtain ⟨c', pre', l', post', g1, g2, g3, g4, g5, g6⟩ := descend_spec
      (c := { c with position := c.offsetOfLeaf - 1 }) ⟨h.shape.balanced, h.shape.size, h.shape.high⟩
    simp only [h.off, hp] at g3 g4 g5 g6
    have hz : pre = pre' ∧ m = l' ∧ l :: post = post' := by
      have e : pre ++ m :: (l :: post) = pre' ++ l' :: post' := by
        have := g2.leaves
        rw [g3, h.leaves] at this; simpa using this
      refine zipper_unique (p := lenOf pre + (LeafSpec.content m).length - 1) e (by simpa using hpos) (by omega) (by omega) g5 ?_
      rcases g6 with g6 | g6
      · exact g6
      · subst g6
        have := congrArg lenOf e
        simp only [lenOf_append, lenOf_cons, lenOf_nil] at this
        omega
    obtain ⟨rfl, rfl, rfl⟩ := hz
    refine ⟨{ c' with position := c'.offsetOfLeaf }, ?_, g2.setPos _, g3, g2.off⟩
    simp [g1, getLeaf, g2.leaf]
  · have e := h1.symm.trans hp'
    have e' := List.append_inj' e rfl
    obtain ⟨e1, e2⟩ := e'
    simp only [List.cons.injEq, and_true] at e2
    subst e2
    have hok : LeafSpec.ok m := by
      obtain ⟨n, hw⟩ := h.balanced
      exact leaf_ok hw m (by rw [h.leaves]; simp)
    have hpost : postLeaves es' = l :: post := by
      have a := hu.leaves
      have b := hu'.leaves
      rw [a] at b
      simp only [Node.fromLeaf, Node.leaves, h1, h2, ← e1] at b
      have : (pre ++ [m]) ++ (l :: post) = (pre ++ [m]) ++ postLeaves es' := by simpa using b
      exact (List.append_cancel_left this).symm
    simp only [hs, Option.bind_eq_bind, Option.bind_some, h.off, LeafSpec.len_eq hok]
    rw [if_neg (by omega)]
    refine ⟨{ c with cache := cacheOf es', leaf := some m, offsetOfLeaf := lenOf pre, position := lenOf pre }, ?_,
      ⟨rfl, rfl, es', hu', rfl, e1.symm, hpost⟩, rfl, rfl⟩
    simp [getLeaf, hp]

/-- `prev_leaf` in the first leaf. -/
theorem prevLeaf_none {c : Cursor L I} {post : List L} {l : L} (h : c.At [] l post) :
    ∃ c', c.prevLeaf = some (c', none) ∧ c'.leaf = none ∧ c'.Shape ∧ c'.root = c.root ∧ c'.position = 0 := by
  have hs := h.shape
  refine ⟨{ c with leaf := none, position := 0 }, ?_, rfl, ⟨hs.1, hs.2, hs.3⟩, rfl, rfl⟩
  simp [prevLeaf, h.off]

end Cursor

end Xi
