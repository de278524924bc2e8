import Verif.Rope.Multiset
import Verif.Spec.Mask

/-!
# Specification of subsets: what a segment list denotes
-/

namespace Xi

/-- The count of each position, in order. -/
def segCounts (segs : List Segment) : List Nat :=
  segs.flatMap (fun s => List.replicate s.len s.count)

/-- The count of each position of the underlying sequence. -/
def Subset.counts (s : Subset) : List Nat := segCounts s.segments

/-- The documented representation invariant (multiset.rs:41-42): no empty
segment, and no segment has the same count as the one before it. -/
def NormalSegs : List Segment → Prop
  | [] => True
  | [s] => 0 < s.len
  | s :: t :: rest => 0 < s.len ∧ s.count ≠ t.count ∧ NormalSegs (t :: rest)

def Subset.Normal (s : Subset) : Prop := NormalSegs s.segments

/-- Builders obtained from `new` by any sequence of successful builder calls. -/
inductive SubsetBuilder.Reach : SubsetBuilder → Prop
  | new : Reach SubsetBuilder.new
  | push {sb sb' len count} : Reach sb → sb.pushSegment len count = some sb' → Reach sb'
  | pad {sb sb' n} : Reach sb → sb.padToLen n = some sb' → Reach sb'
  | addRange {sb sb' b e count} : Reach sb → sb.addRange b e count = some sb' → Reach sb'

/-- Subsets obtained by any finite combination of the public operations. -/
inductive Subset.Reach : Subset → Prop
  | build {sb} : SubsetBuilder.Reach sb → Reach sb.build
  | new {n r} : Subset.new n = some r → Reach r
  | union {a b r} : Reach a → Reach b → a.union b = some r → Reach r
  | subtract {a b r} : Reach a → Reach b → a.subtract b = some r → Reach r
  | bitxor {a b r} : Reach a → Reach b → a.bitxor b = some r → Reach r
  | transformExpand {a b r} : Reach a → Reach b → a.transformExpand b = some r → Reach r
  | transformUnion {a b r} : Reach a → Reach b → a.transformUnion b = some r → Reach r
  | transformShrink {a b r} : Reach a → Reach b → a.transformShrink b = some r → Reach r
  | complement {a r} : Reach a → a.complement = some r → Reach r

end Xi
