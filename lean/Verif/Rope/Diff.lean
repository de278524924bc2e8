import Verif.Rope.Compare
import Verif.Rope.Lines
import Verif.Rope.TreeDelta

/-!
# Model of `rust/rope/src/diff.rs`: the line hash diff
-/

namespace Xi

namespace Diff

/-- `MIN_SIZE`, diff.rs:33. -/
abbrev minSize : Nat := 32

/-- `struct DiffOp`, diff.rs:213-217. -/
structure DiffOp where
  targetIdx : Nat
  baseIdx : Nat
  len : Nat

/-- `DiffBuilder::copy`, diff.rs:226-237, on `ops`. -/
def copy (ops : List DiffOp) (base target len : Nat) : Option (List DiffOp) :=
  match ops.getLast? with
  | some prev =>
    if prev.targetIdx + prev.len ≤ target then
      if prev.targetIdx + prev.len = target ∧ prev.baseIdx + prev.len = base then
        some (ops.dropLast ++ [⟨prev.targetIdx, prev.baseIdx, prev.len + len⟩])
      else some (ops ++ [⟨target, base, len⟩])
    else none
  | none => some (ops ++ [⟨target, base, len⟩])

/-- One round of the loop of `to_delta`, diff.rs:242-249; the state is the elements
and `targ_pos`. -/
def toDeltaStep (target : Rope) (st : List (TreeDeltaElement (List UInt8) RopeInfo) × Nat) (op : DiffOp) :
    Option (List (TreeDeltaElement (List UInt8) RopeInfo) × Nat) :=
  if op.targetIdx > st.2 then do
    let n ← target.subseq (← Interval.new st.2 op.targetIdx)
    return (st.1 ++ [.insert n, .copy op.baseIdx (op.baseIdx + op.len)], op.targetIdx + op.len)
  else some (st.1 ++ [.copy op.baseIdx (op.baseIdx + op.len)], op.targetIdx + op.len)

/-- `DiffBuilder::to_delta`, diff.rs:239-257: the elements and `base_len`. -/
def toDelta (ops : List DiffOp) (base target : Rope) : Option (List (TreeDeltaElement (List UInt8) RopeInfo) × Nat) := do
  let (els, targPos) ← ops.foldlM (toDeltaStep target) ([], 0)
  if targPos < target.len then
    let n ← target.subseq (← Interval.new targPos target.len)
    return (els ++ [.insert n], base.len)
  else return (els, base.len)

/-- `non_ws_offset`, diff.rs:207-209. -/
def nonWsOffset (s : List UInt8) : Nat := (s.takeWhile (fun b => b == 32 || b == 9)).length

/-- The map of `make_line_hashes`: a later `insert` comes first. -/
abbrev LineHashes := List (List UInt8 × Nat)

/-- One round of the loop of `make_line_hashes`, diff.rs:265-275. -/
def lineHashesStep (minSize : Nat) (st : LineHashes × Nat) (line : List UInt8) : Option (LineHashes × Nat) :=
  let nonWs := nonWsOffset line
  if line.length - nonWs ≥ minSize then do
    return ((← strSlice line nonWs line.length, st.2 + nonWs) :: st.1, st.2 + line.length)
  else some (st.1, st.2 + line.length)

/-- `make_line_hashes`, diff.rs:262-277. -/
def makeLineHashes (base : Rope) (minSize : Nat) : Option LineHashes := do
  return (← (← base.linesRaw .full).foldlM (lineHashesStep minSize) ([], 0)).1

/-- The variables of the loop over the lines of the target, diff.rs:81-88. -/
structure MatchState where
  found : List (Nat × Nat)
  targLineOffset : Nat
  prevBase : Nat
  needsSubseq : Bool

/-- One round of that loop, diff.rs:89-102. -/
def matchStep (hashes : LineHashes) (startOffset : Nat) (st : MatchState) (line : List UInt8) : Option MatchState :=
  let nonWs := nonWsOffset line
  let next := st.targLineOffset + line.length
  if line.length - nonWs ≥ minSize then do
    match hashes.lookup (← strSlice line nonWs line.length) with
    | some baseOff =>
      let targOff := st.targLineOffset + nonWs
      return ⟨st.found ++ [(startOffset + targOff, baseOff)], next, baseOff, st.needsSubseq || decide (baseOff < st.prevBase)⟩
    | none => return { st with targLineOffset := next }
  else some { st with targLineOffset := next }

/-- `result.binary_search_by(…)`, diff.rs:182, on the sorted `keys` (that they are
sorted is `Diff.lis_sorted`): `none` if the key is there, otherwise where to insert
it. -/
def binarySearch (keys : List Nat) (key : Nat) : Option Nat :=
  if key ∈ keys then none else some (keys.takeWhile (· < key)).length

/-- The variables `result` and `prev_chain` of `longest_increasing_region_set`. -/
structure LisState where
  result : List Nat
  prevChain : List Nat

/-- `items[j].1`. -/
def key (items : List (Nat × Nat)) (j : Nat) : Option Nat := items[j]?.map Prod.snd

/-- What a round does if the next item is not greater than the last, diff.rs:182-192. -/
def lisReplace (items : List (Nat × Nat)) (st : LisState) (i ki : Nat) : Option LisState := do
  let keys ← st.result.mapM (key items)
  match binarySearch keys ki with
  | none => return st
  | some nextIdx =>
    let kn ← key items (← st.result[nextIdx]?)
    if ki < kn then
      if nextIdx > 0 then
        return ⟨st.result.set nextIdx i, st.prevChain.set i (← st.result[nextIdx - 1]?)⟩
      else return ⟨st.result.set nextIdx i, st.prevChain⟩
    else return st

/-- One round of the `for` loop of `longest_increasing_region_set`, diff.rs:172-193. -/
def lisStep (items : List (Nat × Nat)) (st : LisState) (i : Nat) : Option LisState := do
  let lastIdx ← st.result.getLast?
  let kl ← key items lastIdx
  let ki ← key items i
  if kl < ki then return ⟨st.result ++ [i], st.prevChain.set i lastIdx⟩
  else lisReplace items st i ki

/-- The `while` loop that walks backwards, diff.rs:198-202: the values written to
`result[u - 1]`, …, `result[0]`, in this order. -/
def lisWalk (prevChain : List Nat) : Nat → Nat → Option (List Nat)
  | 0, _ => some []
  | u + 1, v => do
    -- `prev_chain[v]` is read in the last round too
    let w ← prevChain[v]?
    return v :: (← lisWalk prevChain u w)

/-- `longest_increasing_region_set`, diff.rs:168-204. -/
def longestIncreasing (items : List (Nat × Nat)) : Option (List (Nat × Nat)) := do
  let st ← ((List.range items.length).drop 1).foldlM (lisStep items) ⟨[0], List.replicate items.length 0⟩
  let walk ← lisWalk st.prevChain st.result.length (← st.result.getLast?)
  walk.reverse.mapM (fun i => items[i]?)

/-- `expand_match`, diff.rs:150-163. -/
def expandMatch (base target : Rope) (baseOff targOff prevEnd : Nat) : Option (Nat × Nat) := do
  let scanner ← RopeScanner.new base target
  let maxLeft ← usizeSub targOff prevEnd
  let (scanner, start) ← scanner.findNeCharBack baseOff targOff (some maxLeft)
  let (_, stop) ← scanner.findNeChar baseOff targOff none
  return (min start maxLeft, stop)

/-- One round of the loop over the matches, diff.rs:118-135; the state is the
builder and `prev_end`. -/
def expandStep (base target : Rope) (targetEnd : Nat) (st : List DiffOp × Nat) (m : Nat × Nat) : Option (List DiffOp × Nat) :=
  if m.1 ≤ st.2 then some st
  else do
    let (leftDist, rightDist) ← expandMatch base target m.2 m.1 st.2
    let rightDist := min rightDist (← usizeSub targetEnd m.1)
    let targStart ← usizeSub m.1 leftDist
    let baseStart ← usizeSub m.2 leftDist
    let len := leftDist + rightDist
    return (← copy st.1 baseStart targStart len, targStart + len)

/-- `if needs_subseq { longest_increasing_region_set(&matches) } else { matches }`,
diff.rs:110-111. -/
def chosen (st : MatchState) : Option (List (Nat × Nat)) :=
  if st.needsSubseq then longestIncreasing st.found else some st.found

/-- The part of `compute_delta` after the quick exits, diff.rs:79-142. -/
def slowDelta (ops : List DiffOp) (base target : Rope) (startOffset diffEnd targetEnd : Nat) :
    Option (List (TreeDeltaElement (List UInt8) RopeInfo) × Nat) := do
  let hashes ← makeLineHashes base minSize
  let lines ← target.linesRaw (.range startOffset targetEnd)
  let st ← lines.foldlM (matchStep hashes startOffset) ⟨[], 0, 0, false⟩
  let regions ← chosen st
  let (ops, _) ← regions.foldlM (expandStep base target targetEnd) (ops, startOffset)
  if diffEnd > 0 then
    let ops ← copy ops (← usizeSub base.len diffEnd) (← usizeSub target.len diffEnd) diffEnd
    toDelta ops base target
  else toDelta ops base target

/-- `if start_offset > 0 { builder.copy(0, 0, start_offset) }`, diff.rs:59-61. -/
def firstCopy (startOffset : Nat) : Option (List DiffOp) := if startOffset > 0 then copy [] 0 0 startOffset else some []

/-- `LineHashDiff::compute_delta`, diff.rs:51-141: the elements and `base_len` of
the delta.  `line_count`, only a capacity, is left out. -/
def computeDelta (base target : Rope) : Option (List (TreeDeltaElement (List UInt8) RopeInfo) × Nat) := do
  let scanner ← RopeScanner.new base target
  let (startOffset, diffEnd) ← scanner.findMinDiffRange
  let targetEnd ← usizeSub target.len diffEnd
  let ops ← firstCopy startOffset
  if startOffset = base.len ∧ target.len = base.len then toDelta ops base target
  else if target.len < base.len ∧ startOffset + diffEnd = target.len then
    toDelta (← copy ops (← usizeSub base.len diffEnd) targetEnd diffEnd) base target
  else if target.len > base.len ∧ startOffset + diffEnd = base.len then
    toDelta (← copy ops (← usizeSub base.len diffEnd) targetEnd diffEnd) base target
  else slowDelta ops base target startOffset diffEnd targetEnd

end Diff

end Xi
