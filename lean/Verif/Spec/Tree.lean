import Verif.Rope.Tree

/-!
# What trees are: contents and balance

Nothing here refers to the operations of `Rope/Tree.lean` other than the basic
observations (children, cached fields).
-/

namespace Xi

/-- What a type of leaves stands for.  Every leaf that satisfies `ok` holds a
sequence of elements of type `α`; the sequences that can be held are those that
satisfy `valid` (for strings: well-formed UTF-8).  The laws say what
`push_maybe_split` has to do: nothing is lost, and sizes stay in the range. -/
class LeafSpec (L : Type) (I : outParam Type) [TreeLeaf L I] (α : outParam Type) where
  content : L → List α
  ok : L → Prop
  valid : List α → Prop
  valid_nil : valid []
  valid_append : ∀ {a b}, valid a → valid b → valid (a ++ b)
  valid_right : ∀ {a b}, valid a → valid (a ++ b) → valid b
  valid_left : ∀ {a b}, valid b → valid (a ++ b) → valid a
  valid_content : ∀ {l}, ok l → valid (content l)
  len_eq : ∀ {l}, ok l → TreeLeaf.len l = (content l).length
  pos : ∀ {l}, ok l → TreeLeaf.isOkChild l = true → 0 < (content l).length
  ok_default : ok TreeLeaf.default
  content_default : content TreeLeaf.default = []
  /-- Appending a whole leaf, when at least one of the two is too small. -/
  push_whole : ∀ {l m}, ok l → ok m → ¬ (TreeLeaf.isOkChild l = true ∧ TreeLeaf.isOkChild m = true) →
    (∃ l', TreeLeaf.push l m ⟨0, TreeLeaf.len m⟩ = some (l', none) ∧ ok l' ∧
        content l' = content l ++ content m ∧
        (TreeLeaf.isOkChild l = true ∨ TreeLeaf.isOkChild m = true → TreeLeaf.isOkChild l' = true)) ∨
    (∃ l' r, TreeLeaf.push l m ⟨0, TreeLeaf.len m⟩ = some (l', some r) ∧ ok l' ∧ ok r ∧
        content l' ++ content r = content l ++ content m ∧
        TreeLeaf.isOkChild l' = true ∧ TreeLeaf.isOkChild r = true)
  /-- Copying part of a leaf. -/
  push_slice : ∀ {l s e}, ok l → s ≤ e → e ≤ (content l).length →
    valid ((content l).take s) → valid ((content l).take e) →
    ∃ l', TreeLeaf.push TreeLeaf.default l ⟨s, e⟩ = some (l', none) ∧ ok l' ∧
      content l' = ((content l).take e).drop s

variable {L I α : Type}

namespace Node

mutual

/-- The leaves of a tree, from left to right. -/
def leaves : Node L I → List L
  | .leaf _ _ l => [l]
  | .internal _ _ _ cs => leavesList cs

/-- The leaves of a sequence of trees. -/
def leavesList : List (Node L I) → List L
  | [] => []
  | c :: cs => c.leaves ++ leavesList cs

end

variable [TreeLeaf L I] [LeafSpec L I α]

/-- The sequence that a tree stands for. -/
def text (n : Node L I) : List α := n.leaves.flatMap LeafSpec.content

/-- `n` is a balanced tree of height `h`: leaves are well formed; an internal
node has two to eight children, all of height `h - 1`, each of them large enough
(at least four children, or a leaf that is not too small); and the cached height,
length and info are right. -/
def WF : Nat → Node L I → Prop
  | 0, .leaf len info l => LeafSpec.ok l ∧ len = TreeLeaf.len l ∧ info = TreeLeaf.computeInfo l
  | 0, .internal _ _ _ _ => False
  | _ + 1, .leaf _ _ _ => False
  | h + 1, .internal h' len info cs =>
    h' = h + 1 ∧ 2 ≤ cs.length ∧ cs.length ≤ 8 ∧ (∀ c ∈ cs, WF h c ∧ c.isOkChild = true) ∧
    len = (cs.map Node.len).sum ∧
    ∃ c rest, cs = c :: rest ∧
      info = (rest.map Node.info).foldl (TreeLeaf.accumulate L) c.info

/-- `n` is a balanced tree. -/
def Balanced (n : Node L I) : Prop := ∃ h, n.WF h

end Node

end Xi
