import Verif.Rope.Multiset

/-!
# Model of `rust/rope/src/delta.rs`

Texts are lists over an arbitrary element type `α` (bytes, in the program).
A Rust panic is `none`.
-/

namespace Xi

/-- `enum DeltaElement`, delta.rs:28-32. -/
inductive DeltaElement (α : Type) where
  | copy (b e : Nat)
  | insert (s : List α)
deriving DecidableEq, Repr

/-- `struct Delta`, delta.rs:42-45. -/
structure Delta (α : Type) where
  els : List (DeltaElement α)
  baseLen : Nat
deriving DecidableEq, Repr

/-- `struct InsertDelta(Delta)`, delta.rs:51. -/
structure InsertDelta (α : Type) where
  d : Delta α
deriving DecidableEq, Repr

variable {α : Type}

/-- `struct Builder`, delta.rs:579-582. -/
structure DeltaBuilder (α : Type) where
  delta : Delta α
  lastOffset : Nat
deriving DecidableEq, Repr

namespace DeltaBuilder

/-- `Builder::new`, delta.rs:586-588. -/
def new (baseLen : Nat) : DeltaBuilder α := ⟨⟨[], baseLen⟩, 0⟩

/-- `Builder::delete`, delta.rs:591-599; the interval is `[start, e)`
(`into_interval` is the identity on intervals). -/
def delete (b : DeltaBuilder α) (start e : Nat) : Option (DeltaBuilder α) :=
  if start ≥ b.lastOffset then
    some
      { delta :=
          if start > b.lastOffset then
            { b.delta with els := b.delta.els ++ [.copy b.lastOffset start] }
          else b.delta
        lastOffset := e }
  else none

/-- `Builder::replace`, delta.rs:603-608. -/
def replace (b : DeltaBuilder α) (start e : Nat) (rope : List α) : Option (DeltaBuilder α) := do
  let b ← b.delete start e
  return if rope = [] then b else { b with delta := { b.delta with els := b.delta.els ++ [.insert rope] } }

/-- `Builder::is_empty`, delta.rs:611-613. -/
def isEmpty (b : DeltaBuilder α) : Bool := b.lastOffset == 0 && b.delta.els.isEmpty

/-- `Builder::build`, delta.rs:616-621. -/
def build (b : DeltaBuilder α) : Delta α :=
  if b.lastOffset < b.delta.baseLen then
    { b.delta with els := b.delta.els ++ [.copy b.lastOffset b.delta.baseLen] }
  else b.delta

end DeltaBuilder

namespace Delta

/-- `Delta::simple_edit`, delta.rs:54-62. -/
def simpleEdit (start e : Nat) (rope : List α) (baseLen : Nat) : Option (Delta α) := do
  let builder : DeltaBuilder α := DeltaBuilder.new baseLen
  let builder ← if rope = [] then builder.delete start e else builder.replace start e rope
  return builder.build

/-- Second half of `Delta::as_simple_insert`, delta.rs:76-88, with `i` and the
remaining elements after the optional leading `Copy`. -/
def asSimpleInsertTail (baseLen i : Nat) : List (DeltaElement α) → Option (List α)
  | [.insert n] => if i = baseLen then some n else none
  | [.insert n, .copy b e] => if i = b ∧ e = baseLen then some n else none
  | _ => none

/-- `Delta::as_simple_insert`, delta.rs:65-89. -/
def asSimpleInsert (d : Delta α) : Option (List α) :=
  match d.els with
  | .copy b e :: rest => if b ≠ 0 then none else asSimpleInsertTail d.baseLen e rest
  | els => asSimpleInsertTail d.baseLen 0 els

/-- `Delta::is_simple_delete`, delta.rs:96-118. -/
def isSimpleDelete (d : Delta α) : Bool :=
  match d.els with
  | [] => d.baseLen > 0
  | .copy b e :: rest =>
    if b = 0 then
      match rest with
      | [] => e < d.baseLen
      | .copy b1 e1 :: rest' => rest'.isEmpty && e < b1 && e1 == d.baseLen
      | .insert _ :: _ => false
    else e == d.baseLen && rest.isEmpty
  | .insert _ :: _ => false

/-- `Delta::is_identity`, delta.rs:121-132. -/
def isIdentity (d : Delta α) : Bool :=
  match d.els with
  | [.copy b e] => b == 0 && e == d.baseLen
  | [] => d.baseLen == 0
  | _ => false

/-- One step of `Delta::apply`. -/
def applyEl (base : List α) (acc : List α) : DeltaElement α → Option (List α)
  | .copy b e => do return acc ++ (← slice base b e)
  | .insert n => some (acc ++ n)

/-- `Delta::apply`, delta.rs:136-146 (the `debug_assert` on the base length is
not part of the model). -/
def apply (d : Delta α) (base : List α) : Option (List α) := d.els.foldlM (applyEl base) []

/-- Loop state of `Delta::factor`. -/
structure FactorState (α : Type) where
  ins : List (DeltaElement α)
  sb : SubsetBuilder
  b1 : Nat
  e1 : Nat

/-- One iteration of the loop of `Delta::factor`, delta.rs:166-180. -/
def factorStep (st : FactorState α) : DeltaElement α → Option (FactorState α)
  | .copy b e => do
    let sb ← st.sb.addRange st.e1 b 1
    return { st with sb := sb, e1 := e }
  | .insert n =>
    let ins := if st.e1 > st.b1 then st.ins ++ [.copy st.b1 st.e1] else st.ins
    some { st with ins := ins ++ [.insert n], b1 := st.e1 }

/-- `Delta::factor`, delta.rs:161-187. -/
def factor (d : Delta α) : Option (InsertDelta α × Subset) := do
  let st ← d.els.foldlM factorStep ⟨[], SubsetBuilder.new, 0, 0⟩
  let ins := if st.b1 < d.baseLen then st.ins ++ [.copy st.b1 d.baseLen] else st.ins
  let sb ← st.sb.addRange st.e1 d.baseLen 1
  let sb ← sb.padToLen d.baseLen
  return (⟨⟨ins, d.baseLen⟩⟩, sb.build)

/-- Loop state of `Delta::synthesize`.  `old` is `last_old` followed by what is
left in `old_ranges`. -/
structure SynthState (α : Type) where
  els : List (DeltaElement α)
  x : Nat
  old : List (Nat × Nat)
  m : Mapper

/-- `while let Some((ib, ie)) = last_old { ... }`, delta.rs:232-238. -/
def skipOld (beg : Nat) : Nat → List (Nat × Nat) → Nat × List (Nat × Nat)
  | x, [] => (x, [])
  | x, (ib, ie) :: rest =>
    if ie > beg then (x, (ib, ie) :: rest) else skipOld beg (x + (ie - ib)) rest

/-- Push a `Copy`, merging it with a directly preceding `Copy` that ends where
it starts, delta.rs:243-259. -/
def pushCopy (xb xe : Nat) : List (DeltaElement α) → List (DeltaElement α)
  | [] => [.copy xb xe]
  | [.copy lb le] => if le = xb then [.copy lb xe] else [.copy lb le, .copy xb xe]
  | [.insert s] => [.insert s, .copy xb xe]
  | el :: el' :: rest => el :: pushCopy xb xe (el' :: rest)

/-- The `while beg < e` loop, delta.rs:230-275.  Every iteration increases
`beg`, so `e - beg` is enough fuel. -/
def fill (tombstones : List α) (e : Nat) : Nat → Nat → SynthState α → Option (SynthState α)
  | 0, beg, st => if beg < e then none else some st
  | fuel + 1, beg, st =>
    if beg < e then
      let (x, old) := skipOld beg st.x st.old
      match old with
      | (ib, ie) :: rest =>
        if ib ≤ beg then
          let stop := min e ie
          fill tombstones e fuel stop
            { st with els := pushCopy (beg + x - ib) (stop + x - ib) st.els, x := x,
                      old := (ib, ie) :: rest }
        else do
          let stop := min e ib
          let (i1, m) ← st.m.docIndexToSubset beg
          let (i2, m) ← m.docIndexToSubset stop
          let t ← slice tombstones i1 i2
          fill tombstones e fuel stop
            { els := st.els ++ [.insert t], x := x, old := (ib, ie) :: rest, m := m }
      | [] => do
        let stop := e
        let (i1, m) ← st.m.docIndexToSubset beg
        let (i2, m) ← m.docIndexToSubset stop
        let t ← slice tombstones i1 i2
        fill tombstones e fuel stop
          { els := st.els ++ [.insert t], x := x, old := [], m := m }
    else some st

/-- `Delta::synthesize`, delta.rs:219-278. -/
def synthesize (tombstones : List α) (fromDels toDels : Subset) : Option (Delta α) := do
  let baseLen := fromDels.lenAfterDelete
  let st ← (toDels.rangeIter .zero).foldlM
    (fun st (r : Nat × Nat) => fill tombstones r.2 (r.2 - r.1) r.1 st)
    ⟨[], 0, fromDels.rangeIter .zero, fromDels.mapper .nonZero⟩
  return ⟨st.els, baseLen⟩

/-- `Delta::total_element_len`, delta.rs:314-321. -/
def totalElementLen (els : List (DeltaElement α)) : Nat :=
  els.foldl (fun sum el => sum + match el with
    | .copy b e => e - b
    | .insert n => n.length) 0

/-- `Delta::new_document_len`, delta.rs:310-312. -/
def newDocumentLen (d : Delta α) : Nat := totalElementLen d.els

/-- `Delta::inserts_len`, delta.rs:324-331. -/
def insertsLen (d : Delta α) : Nat :=
  d.els.foldl (fun sum el => sum + match el with
    | .copy _ _ => 0
    | .insert n => n.length) 0

/-- `Delta::summary`, delta.rs:289-304: start and end of the interval, and the
length of its new contents. -/
def summary (d : Delta α) : (Nat × Nat) × Nat :=
  let (ivStart, els) : Nat × List (DeltaElement α) :=
    match d.els with
    | .copy 0 e :: rest => (e, rest)
    | els => (0, els)
  let (ivEnd, els) : Nat × List (DeltaElement α) :=
    match els.getLast? with
    | some (.copy b e) => if e = d.baseLen then (b, els.dropLast) else (d.baseLen, els)
    | _ => (d.baseLen, els)
  ((ivStart, ivEnd), totalElementLen els)

/-- `struct DeltaRegion`, delta.rs:631-635. -/
structure Region where
  oldOffset : Nat
  newOffset : Nat
  len : Nat
deriving DecidableEq, Repr

/-- `InsertsIter` run to completion, delta.rs:643-664; `pos`, `lastEnd` are the
iterator's fields. -/
def insertsGo : List (DeltaElement α) → Nat → Nat → List Region
  | [], _, _ => []
  | .copy b e :: rest, pos, _ => insertsGo rest (pos + (e - b)) e
  | .insert n :: rest, pos, lastEnd =>
    ⟨lastEnd, pos, n.length⟩ :: insertsGo rest (pos + n.length) (lastEnd + n.length)

/-- `Delta::iter_inserts`, delta.rs:334-336. -/
def iterInserts (d : Delta α) : List Region := insertsGo d.els 0 0

/-- `DeletionsIter` run to completion, delta.rs:673-702. -/
def deletionsGo (baseLen : Nat) : List (DeltaElement α) → Nat → Nat → List Region
  | [], pos, lastEnd => if lastEnd < baseLen then [⟨lastEnd, pos, baseLen - lastEnd⟩] else []
  | .copy b e :: rest, pos, lastEnd =>
    if b > lastEnd then
      ⟨lastEnd, pos, b - lastEnd⟩ :: deletionsGo baseLen rest (pos + (e - b)) e
    else deletionsGo baseLen rest (pos + (e - b)) e
  | .insert n :: rest, pos, lastEnd =>
    deletionsGo baseLen rest (pos + n.length) (lastEnd + n.length)

/-- `Delta::iter_deletions`, delta.rs:339-341. -/
def iterDeletions (d : Delta α) : List Region := deletionsGo d.baseLen d.els 0 0

/-- The loop of `Transformer::transform`, delta.rs:525-541. -/
def transformGo (ix : Nat) (after : Bool) : List (DeltaElement α) → Nat → Nat
  | [], result => result
  | .copy b e :: rest, result =>
    if ix ≤ b then result
    else if ix < e || (ix == e && !after) then result + ix - b
    else transformGo ix after rest (result + (e - b))
  | .insert n :: rest, result => transformGo ix after rest (result + n.length)

/-- `Transformer::transform`, delta.rs:520-542. -/
def transformIx (d : Delta α) (ix : Nat) (after : Bool) : Nat :=
  if ix = 0 ∧ after = false then 0 else transformGo ix after d.els 0

/-- `Transformer::interval_untouched`, delta.rs:545-572, for the interval
`[s, t)`; `Interval::is_before(v)` is `end <= v`, `is_after(v)` is `start > v`
(interval.rs:78-91). -/
def untouchedGo (s t : Nat) : List (DeltaElement α) → Bool → Bool
  | [], _ => false
  | .copy b e :: rest, lastWasIns =>
    if t ≤ e then
      if (if lastWasIns then decide (s > b) else !decide (t ≤ b)) then true
      else untouchedGo s t rest false
    else false
  | .insert _ :: rest, _ => untouchedGo s t rest true

def intervalUntouched (d : Delta α) (s t : Nat) : Bool := untouchedGo s t d.els true

end Delta

namespace InsertDelta

/-- `InsertDelta` derefs to `Delta`, delta.rs:493-499. -/
def apply (d : InsertDelta α) (base : List α) : Option (List α) := d.d.apply base

/-- One element of `InsertDelta::inserted_subset`, delta.rs:477-484. -/
def insertedStep (sb : SubsetBuilder) : DeltaElement α → Option SubsetBuilder
  | .copy b e => sb.pushSegment (e - b) 0
  | .insert n => sb.pushSegment n.length 1

/-- `InsertDelta::inserted_subset`, delta.rs:474-487. -/
def insertedSubset (d : InsertDelta α) : Option Subset := do
  let sb ← d.d.els.foldlM insertedStep SubsetBuilder.new
  return sb.build

/-- One element of `InsertDelta::transform_shrink`, delta.rs:461-466, threading
the mapper. -/
def shrinkStep (st : List (DeltaElement α) × Mapper) :
    DeltaElement α → Option (List (DeltaElement α) × Mapper)
  | .copy b e => do
    let (b', m) ← st.2.docIndexToSubset b
    let (e', m) ← m.docIndexToSubset e
    return (st.1 ++ [.copy b' e'], m)
  | .insert n => some (st.1 ++ [.insert n], st.2)

/-- `InsertDelta::transform_shrink`, delta.rs:455-469. -/
def transformShrink (d : InsertDelta α) (xform : Subset) : Option (InsertDelta α) := do
  let st ← d.d.els.foldlM shrinkStep ([], xform.mapper .zero)
  return ⟨⟨st.1, xform.lenAfterDelete⟩⟩

/-- Loop state of `InsertDelta::transform_expand`, delta.rs:396-402: `out` is the
vector being built, `els` the elements from index `i` on, `xf` is `last_xform`
followed by what is left in `xform_ranges`. -/
structure ExpandState (α : Type) where
  out : List (DeltaElement α)
  els : List (DeltaElement α)
  x : Nat
  y : Nat
  b1 : Nat
  xf : List (Nat × Nat)

/-- The inner `while i < cur_els.len()` loop, delta.rs:409-439.  `nib` is
`next_iv_beg`. -/
def expandInner (nib x y : Nat) (xf : List (Nat × Nat)) :
    (out : List (DeltaElement α)) → (b1 : Nat) → List (DeltaElement α) → Option (ExpandState α)
  | out, b1, [] => some ⟨out, [], x, y, b1, xf⟩
  | out, b1, .insert n :: rest =>
    let out := if y > b1 then out ++ [.copy b1 y] else out
    expandInner nib x y xf (out ++ [.insert n]) y rest
  | out, b1, .copy b e :: rest =>
    if y ≥ nib then
      -- `e + y - x` and `next_y - y` underflow (panic) when negative
      if e + y < x then none
      else
        let nextY := match xf with
          | (_, xe) :: _ => min (e + y - x) xe
          | [] => e + y - x
        if nextY < y then none
        else
          let x' := x + (nextY - y)
          let els := if x' = e then rest else .copy b e :: rest
          let xf' := match xf with
            | (xb, xe) :: xr => if nextY = xe then xr else (xb, xe) :: xr
            | [] => []
          some ⟨out, els, x', nextY, b1, xf'⟩
    else some ⟨out, .copy b e :: rest, x, y, b1, xf⟩

/-- `next_iv_beg`, delta.rs:405. -/
def nextIvBeg (l : Nat) : List (Nat × Nat) → Nat
  | (xb, _) :: _ => xb
  | [] => l

/-- The outer loop, delta.rs:404-443.  `l` is the length of the transform.  On
well-formed arguments every iteration but the last increases `y`, so `l + 2` is
enough fuel; with arguments of mismatched lengths the Rust loop may not
terminate, which shows up here as running out of fuel (`none`). -/
def expandOuter (l : Nat) (after : Bool) : Nat → ExpandState α → Option (ExpandState α)
  | 0, st => if st.y < l ∨ st.els ≠ [] then none else some st
  | fuel + 1, st =>
    if st.y < l ∨ st.els ≠ [] then do
      let nib := nextIvBeg l st.xf
      let y := if after && st.y < nib then nib else st.y
      let st ← expandInner nib st.x y st.xf st.out st.b1 st.els
      let y := if !after && st.y < nib then nib else st.y
      expandOuter l after fuel { st with y := y }
    else some st

/-- `InsertDelta::transform_expand`, delta.rs:394-448. -/
def transformExpand (d : InsertDelta α) (xform : Subset) (after : Bool) :
    Option (InsertDelta α) := do
  let l := xform.count .all
  let st ← expandOuter l after (l + 2) ⟨[], d.d.els, 0, 0, 0, xform.rangeIter .zero⟩
  let out := if st.y > st.b1 then st.out ++ [.copy st.b1 st.y] else st.out
  return ⟨⟨out, l⟩⟩

end InsertDelta
end Xi
