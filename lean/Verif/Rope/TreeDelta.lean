import Verif.Rope.Tree
import Verif.Rope.Delta

/-!
# Deltas and subsets on trees

`Rope/Delta.lean` and `Rope/Multiset.lean` model `Delta::apply` and
`Subset::delete_from` on plain sequences; here they are modelled on trees, as the
program has them.
-/

namespace Xi

variable {L I : Type} [TreeLeaf L I]

/-- `DeltaElement<N>` with the inserted trees themselves, delta.rs:28-32. -/
inductive TreeDeltaElement (L I : Type) where
  | copy (b e : Nat)
  | insert (n : Node L I)

/-- One round of the loop of `Delta::apply`, delta.rs:139-144. -/
def applyTreeEl (base : Node L I) (b : TreeBuilder L I) : TreeDeltaElement L I → Option (TreeBuilder L I)
  | .copy beg e => do base.pushSubseq b (← Interval.new beg e)
  | .insert n => b.push n

/-- `Delta::apply`, delta.rs:136-146. -/
def applyTree (els : List (TreeDeltaElement L I)) (baseLen : Nat) (base : Node L I) : Option (Node L I) :=
  if base.len ≠ baseLen then none
  else do (← els.foldlM (applyTreeEl base) TreeBuilder.new).build

/-- `Subset::delete_from`, multiset.rs:147-153. -/
def Subset.deleteFromTree (s : Subset) (n : Node L I) : Option (Node L I) := do
  (← (s.rangeIter .zero).foldlM (fun b r => do n.pushSubseq b (← Interval.new r.1 r.2)) TreeBuilder.new).build

end Xi
