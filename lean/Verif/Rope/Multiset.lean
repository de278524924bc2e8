/-!
# Model of `rust/rope/src/multiset.rs`

Multi-subsets of a sequence, stored as run-length encoded segments.
A Rust panic (failed `assert!`, `expect`, `panic!`) is `none`.
-/

namespace Xi

/-- `struct Segment`, multiset.rs:27-30. -/
structure Segment where
  len : Nat
  count : Nat
deriving DecidableEq, Repr

/-- `struct Subset`, multiset.rs:40-44.  The derived `PartialEq` is structural
equality of the segment list, as in Rust (multiset.rs:38). -/
structure Subset where
  segments : List Segment
deriving DecidableEq, Repr

/-- `struct SubsetBuilder`, multiset.rs:47-50. -/
structure SubsetBuilder where
  segments : List Segment
  totalLen : Nat
deriving DecidableEq, Repr

namespace SubsetBuilder

/-- `SubsetBuilder::new`, multiset.rs:53-55. -/
def new : SubsetBuilder := ⟨[], 0⟩

/-- The part of `push_segment` that touches the vector, multiset.rs:93-100:
merge into the last segment when the counts agree, append otherwise. -/
def pushLast (len count : Nat) : List Segment → List Segment
  | [] => [⟨len, count⟩]
  | [s] => if s.count = count then [⟨s.len + len, s.count⟩] else [s, ⟨len, count⟩]
  | s :: t :: rest => s :: pushLast len count (t :: rest)

/-- `SubsetBuilder::push_segment`, multiset.rs:88-101 (panics on an empty
segment). -/
def pushSegment (sb : SubsetBuilder) (len count : Nat) : Option SubsetBuilder :=
  if len > 0 then
    some { segments := pushLast len count sb.segments, totalLen := sb.totalLen + len }
  else none

/-- `SubsetBuilder::pad_to_len`, multiset.rs:59-64. -/
def padToLen (sb : SubsetBuilder) (totalLen : Nat) : Option SubsetBuilder :=
  if totalLen > sb.totalLen then sb.pushSegment (totalLen - sb.totalLen) 0 else some sb

/-- `SubsetBuilder::add_range`, multiset.rs:69-84. -/
def addRange (sb : SubsetBuilder) (b e count : Nat) : Option SubsetBuilder := do
  if b < sb.totalLen then none
  else if b ≥ e then some sb
  else
    let sb ← if b > sb.totalLen then sb.pushSegment (b - sb.totalLen) 0 else some sb
    sb.pushSegment (e - b) count

/-- `SubsetBuilder::build`, multiset.rs:103-105. -/
def build (sb : SubsetBuilder) : Subset := ⟨sb.segments⟩

end SubsetBuilder

/-- `enum CountMatcher`, multiset.rs:111-115. -/
inductive CountMatcher where
  | zero | nonZero | all
deriving DecidableEq, Repr

/-- `CountMatcher::matches`, multiset.rs:118-124. -/
def CountMatcher.matchesSeg (m : CountMatcher) (s : Segment) : Bool :=
  match m with
  | .zero => s.count == 0
  | .nonZero => s.count != 0
  | .all => true

/-- `struct ZipSegment`, multiset.rs:404-408. -/
structure ZipSegment where
  len : Nat
  aCount : Nat
  bCount : Nat
deriving DecidableEq, Repr

/-- `s[b..e]` on a text: panics unless `b ≤ e ≤ len`.  (For a multi-leaf
rope, `Node::push_subseq` silently clamps an out-of-range interval instead of
panicking; we count any out-of-range slice as a failure, which is stricter.) -/
def slice {α : Type} (s : List α) (b e : Nat) : Option (List α) :=
  if b ≤ e ∧ e ≤ s.length then some ((s.take e).drop b) else none

namespace Subset

/-- `Subset::new`, multiset.rs:129-133. -/
def new (len : Nat) : Option Subset := do
  let sb ← SubsetBuilder.new.padToLen len
  return sb.build

/-- `RangeIter` run to completion, multiset.rs:371-389; `consumed` is the field
of the iterator. -/
def rangeGo (m : CountMatcher) : List Segment → Nat → List (Nat × Nat)
  | [], _ => []
  | seg :: rest, consumed =>
    let consumed := consumed + seg.len
    if m.matchesSeg seg then (consumed - seg.len, consumed) :: rangeGo m rest consumed
    else rangeGo m rest consumed

/-- `Subset::range_iter`, multiset.rs:291-293 (the list of items the iterator
yields). -/
def rangeIter (s : Subset) (m : CountMatcher) : List (Nat × Nat) := rangeGo m s.segments 0

/-- `Subset::delete_from` / `delete_from_string`, multiset.rs:136-153, on a text
given as a list of elements. -/
def deleteFrom {α : Type} (s : Subset) (text : List α) : Option (List α) :=
  (s.rangeIter .zero).foldlM (fun acc r => do return acc ++ (← slice text r.1 r.2)) []

/-- `Subset::count`, multiset.rs:166-168. -/
def count (s : Subset) (m : CountMatcher) : Nat :=
  ((s.segments.filter m.matchesSeg).map Segment.len).sum

/-- `Subset::len_after_delete`, multiset.rs:161-163. -/
def lenAfterDelete (s : Subset) : Nat := s.count .zero

/-- `Subset::len`, multiset.rs:171-173. -/
def len (s : Subset) : Nat := s.count .all

/-- `Subset::is_empty`, multiset.rs:177-179. -/
def isEmpty (s : Subset) : Bool :=
  match s.segments with
  | [] => true
  | [seg] => seg.count == 0
  | _ => false

/-- `ZipIter` run to completion, multiset.rs:392-451.  `as`/`bs` are the slices
from index `a_i`/`b_i` on; `ac`, `bc`, `c` are the fields `a_consumed`,
`b_consumed`, `consumed`.  Each step advances at least one index, so the number
of remaining segments is enough fuel (proved in `MultisetLemmas`). -/
def zipGo : Nat → List Segment → List Segment → Nat → Nat → Nat → Option (List ZipSegment)
  | _, [], [], _, _, _ => some []
  | _, [], _ :: _, _, _, _ => none
  | _, _ :: _, [], _, _, _ => none
  | 0, _ :: _, _ :: _, _, _, _ => none
  | fuel + 1, a :: as, b :: bs, ac, bc, c =>
    if a.len + ac = b.len + bc then do
      let len := ac + a.len - c
      return ⟨len, a.count, b.count⟩ :: (← zipGo fuel as bs (ac + a.len) (bc + b.len) (c + len))
    else if a.len + ac < b.len + bc then do
      let len := ac + a.len - c
      return ⟨len, a.count, b.count⟩ :: (← zipGo fuel as (b :: bs) (ac + a.len) bc (c + len))
    else do
      let len := bc + b.len - c
      return ⟨len, a.count, b.count⟩ :: (← zipGo fuel (a :: as) bs ac (bc + b.len) (c + len))

/-- `Subset::zip`, multiset.rs:306-316. -/
def zip (a b : Subset) : Option (List ZipSegment) :=
  zipGo (a.segments.length + b.segments.length) a.segments b.segments 0 0 0

/-- `Subset::union`, multiset.rs:183-189. -/
def union (a b : Subset) : Option Subset := do
  let sb ← (← zip a b).foldlM
    (fun (sb : SubsetBuilder) z => sb.pushSegment z.len (z.aCount + z.bCount)) SubsetBuilder.new
  return sb.build

/-- `Subset::subtract`, multiset.rs:193-205. -/
def subtract (a b : Subset) : Option Subset := do
  let sb ← (← zip a b).foldlM
    (fun (sb : SubsetBuilder) z =>
      if z.aCount ≥ z.bCount then sb.pushSegment z.len (z.aCount - z.bCount) else none)
    SubsetBuilder.new
  return sb.build

/-- `Subset::bitxor`, multiset.rs:213-219. -/
def bitxor (a b : Subset) : Option Subset := do
  let sb ← (← zip a b).foldlM
    (fun (sb : SubsetBuilder) z => sb.pushSegment z.len (z.aCount ^^^ z.bCount)) SubsetBuilder.new
  return sb.build

/-- State of the outer loop of `Subset::transform`: builder, rest of `seg_iter`,
`cur_seg`. -/
structure TState where
  sb : SubsetBuilder
  segs : List Segment
  cur : Segment

/-- The `while to_be_consumed > 0` loop of `Subset::transform`,
multiset.rs:232-245.  `cur` is `cur_seg`, `segs` is what is left of `seg_iter`,
`need` is `to_be_consumed`.  Every iteration that does not finish leaves
`cur_seg` empty, so the next one takes a segment: `segs.length + 2` is enough
fuel (proved in `MultisetLemmas`). -/
def consume : Nat → SubsetBuilder → List Segment → Segment → Nat → Option TState
  | 0, _, _, _, _ => none
  | fuel + 1, sb, segs, cur, need =>
    if need = 0 then some ⟨sb, segs, cur⟩
    else do
      let (cur, segs) ←
        if cur.len = 0 then
          match segs with
          | [] => none
          | s :: rest => some (s, rest)
        else some (cur, segs)
      let toConsume := min cur.len need
      let sb ← sb.pushSegment toConsume cur.count
      consume fuel sb segs ⟨cur.len - toConsume, cur.count⟩ (need - toConsume)

/-- One iteration of the `for oseg in &other.segments` loop of
`Subset::transform`, multiset.rs:227-247. -/
def transformStep (union : Bool) (st : TState) (oseg : Segment) : Option TState :=
  if oseg.count > 0 then do
    let sb ← st.sb.pushSegment oseg.len (if union then oseg.count else 0)
    return { st with sb := sb }
  else
    consume (st.segs.length + 2) st.sb st.segs st.cur oseg.len

/-- `Subset::transform`, multiset.rs:223-251. -/
def transform (s other : Subset) (union : Bool) : Option Subset := do
  let st ← other.segments.foldlM (transformStep union) ⟨SubsetBuilder.new, s.segments, ⟨0, 0⟩⟩
  if st.cur.len = 0 ∧ st.segs = [] then return st.sb.build else none

/-- `Subset::transform_expand`, multiset.rs:261-263. -/
def transformExpand (s other : Subset) : Option Subset := s.transform other false

/-- `Subset::transform_union`, multiset.rs:266-268. -/
def transformUnion (s other : Subset) : Option Subset := s.transform other true

/-- `Subset::transform_shrink`, multiset.rs:277-287. -/
def transformShrink (s other : Subset) : Option Subset := do
  let sb ← (← zip s other).foldlM
    (fun (sb : SubsetBuilder) z =>
      if z.bCount = 0 then sb.pushSegment z.len z.aCount else some sb)
    SubsetBuilder.new
  return sb.build

/-- `Subset::complement`, multiset.rs:320-330. -/
def complement (s : Subset) : Option Subset := do
  let sb ← s.segments.foldlM
    (fun (sb : SubsetBuilder) seg =>
      if seg.count = 0 then sb.pushSegment seg.len 1 else sb.pushSegment seg.len 0)
    SubsetBuilder.new
  return sb.build

end Subset

/-- `struct Mapper`, multiset.rs:453-459.  `ranges` is what the `RangeIter` has
still to yield.  `curRange = none` stands for `(usize::MAX, usize::MAX)`. -/
structure Mapper where
  ranges : List (Nat × Nat)
  lastI : Nat
  curRange : Option (Nat × Nat)
  consumed : Nat
deriving DecidableEq, Repr

/-- `Subset::mapper`, multiset.rs:334-341. -/
def Subset.mapper (s : Subset) (m : CountMatcher) : Mapper :=
  { ranges := s.rangeIter m, lastI := 0, curRange := some (0, 0), consumed := 0 }

namespace Mapper

/-- The `while` loop and the final case distinction of `doc_index_to_subset`,
multiset.rs:487-506: returns the answer, the ranges left, the current range and
the amount consumed. -/
def loop (i : Nat) : (ranges : List (Nat × Nat)) → (cur : Nat × Nat) → (consumed : Nat) →
    Nat × List (Nat × Nat) × Option (Nat × Nat) × Nat
  | ranges, cur, consumed =>
    if i ≥ cur.2 then
      let consumed := consumed + (cur.2 - cur.1)
      match ranges with
      | [] => (consumed, [], none, consumed)
      | r :: rest => loop i rest r consumed
    else if i ≥ cur.1 then (i - cur.1 + consumed, ranges, some cur, consumed)
    else (consumed, ranges, some cur, consumed)

/-- `Mapper::doc_index_to_subset`, multiset.rs:478-507 (panics on a decreasing
query). -/
def docIndexToSubset (mp : Mapper) (i : Nat) : Option (Nat × Mapper) :=
  if i < mp.lastI then none
  else
    match mp.curRange with
    | none => some (mp.consumed, { mp with lastI := i })
    | some cur =>
      let (ans, ranges, cur, consumed) := loop i mp.ranges cur mp.consumed
      some (ans, { ranges := ranges, lastI := i, curRange := cur, consumed := consumed })

end Mapper
end Xi
