import Verif.Rope.Find

/-!
# Model of `rust/rope/src/compare.rs`: comparing ropes

Byte masks are lists of bits, least significant first.  The `debug_assert!`s are
not modelled.
-/

namespace Xi

/-- `a - b` on `usize`, which panics below zero. -/
def usizeSub (a b : Nat) : Option Nat := if b ≤ a then some (a - b) else none

namespace Compare

/-- `ne_idx_fallback`, compare.rs:177-179. -/
def neIdxFallback : List UInt8 → List UInt8 → Option Nat
  | a :: one, b :: two => if a != b then some 0 else (neIdxFallback one two).map (· + 1)
  | _, _ => none

/-- `ne_idx_rev_fallback`, compare.rs:184-186. -/
def neIdxRevFallback (one two : List UInt8) : Option Nat := neIdxFallback one.reverse two.reverse

/-- `sse_compare_mask` and `avx_compare_mask`, compare.rs:46-58 and 68-74: `width`
bytes are loaded from where a slice begins, which may be more than the slice has;
`junk1` and `junk2` are what lies behind the slices in memory.  The high half of
the `i32` of `sse_compare_mask`, which is zero, is left out. -/
def compareMask (width : Nat) (one junk1 two junk2 : List UInt8) : List Bool :=
  List.zipWith (fun a b => a != b) ((one ++ junk1).take width) ((two ++ junk2).take width)

/-- `mask.trailing_zeros()` for a mask that is not zero, `none` for zero. -/
def trailingZeros (mask : List Bool) : Option Nat := mask.findIdx? (fun b => b)

/-- The `while` loop of `ne_idx_avx` (`width` 32) and `ne_idx_sse` (`width` 16),
compare.rs:107-121 and 129-141; `junk1 idx` and `junk2 idx` are what lies in
memory behind the slices compared in the round at `idx`.  The first argument
bounds the number of rounds. -/
def neIdxLoop (width : Nat) (junk1 junk2 : Nat → List UInt8) (one two : List UInt8) (minLen : Nat) : Nat → Nat → Option Nat
  | 0, _ => none
  | fuel + 1, idx =>
    if idx < minLen then
      let strideLen := min width (minLen - idx)
      let mask := compareMask width ((one.drop idx).take strideLen) (junk1 idx) ((two.drop idx).take strideLen) (junk2 idx)
      match trailingZeros mask with
      | some z => if idx + z < minLen then some (idx + z) else neIdxLoop width junk1 junk2 one two minLen fuel (idx + width)
      | none => neIdxLoop width junk1 junk2 one two minLen fuel (idx + width)
    else none

/-- `ne_idx_avx` (`width` 32) and `ne_idx_sse` (`width` 16), compare.rs:104-141. -/
def neIdxVector (width : Nat) (junk1 junk2 : Nat → List UInt8) (one two : List UInt8) : Option Nat :=
  neIdxLoop width junk1 junk2 one two (min one.length two.length) (min one.length two.length + 1) 0

/-- `mask.leading_zeros() as usize - SSE_STRIDE`: the number of zero bits above the
highest one bit of the 16 bits of the mask. -/
def leadingZeros16 (mask : List Bool) : Nat := (mask.reverse.takeWhile (fun b => !b)).length

/-- The mask in a round of `ne_idx_rev_sse`, compare.rs:153-161. -/
def revMask (one two : List UInt8) (idx : Nat) : List Bool :=
  if idx < 16 then
    compareMask 16 (List.replicate (16 - idx) 0 ++ one.take idx) [] (List.replicate (16 - idx) 0 ++ two.take idx) []
  else compareMask 16 ((one.take idx).drop (idx - 16)) [] ((two.take idx).drop (idx - 16)) []

/-- The `loop` of `ne_idx_rev_sse`, compare.rs:152-170; the outer `none` is a
panic (a subtraction below zero), the first argument bounds the number of rounds. -/
def neIdxRevLoop (one two : List UInt8) (minLen : Nat) : Nat → Nat → Option (Option Nat)
  | 0, _ => none
  | fuel + 1, idx =>
    let i := leadingZeros16 (revMask one two idx)
    if i ≠ 16 then do return some (← usizeSub minLen (← usizeSub idx i))
    else if idx < 16 then some none
    else neIdxRevLoop one two minLen fuel (idx - 16)

/-- `ne_idx_rev_sse`, compare.rs:146-172. -/
def neIdxRevSse (one two : List UInt8) : Option (Option Nat) :=
  let minLen := min one.length two.length
  neIdxRevLoop (one.drop (one.length - minLen)) (two.drop (two.length - minLen)) minLen (minLen + 1) minLen

end Compare

/-- `struct RopeScanner`, compare.rs:189-195. -/
structure RopeScanner where
  base : RopeCursor
  target : RopeCursor
  baseChunk : List UInt8
  targetChunk : List UInt8
  scanned : Nat

namespace RopeScanner

open Compare

/-- `RopeScanner::new`, compare.rs:198-206. -/
def new (base target : Rope) : Option RopeScanner := do
  return ⟨← Cursor.new base 0, ← Cursor.new target 0, [], [], 0⟩

/-- `stop.min(x)`, where no `stop` is `usize::max_value()`. -/
def minStop (stop : Option Nat) (x : Nat) : Nat :=
  match stop with
  | some s => min s x
  | none => x

/-- `stop <= x`. -/
def stopReached (stop : Option Nat) (x : Nat) : Bool :=
  match stop with
  | some s => s ≤ x
  | none => false

/-- One half of `load_prev_chunk`, compare.rs:377-387. -/
def loadPrev (cursor : RopeCursor) (chunk : List UInt8) : Option (RopeCursor × List UInt8) :=
  if chunk.isEmpty then do
    let (cursor, leaf) ← cursor.prevLeaf
    match leaf with
    | some (l, _) => return (cursor, l)
    | none => return (cursor, chunk)
  else some (cursor, chunk)

/-- One half of `load_next_chunk`, compare.rs:391-401. -/
def loadNext (cursor : RopeCursor) (chunk : List UInt8) : Option (RopeCursor × List UInt8) :=
  if chunk.isEmpty then do
    let (cursor, leaf) ← cursor.nextLeaf
    match leaf with
    | some (l, _) => return (cursor, l)
    | none => return (cursor, chunk)
  else some (cursor, chunk)

/-- `load_prev_chunk`, compare.rs:376-388. -/
def loadPrevChunk (s : RopeScanner) : Option RopeScanner := do
  let (b, bc) ← loadPrev s.base s.baseChunk
  let (t, tc) ← loadPrev s.target s.targetChunk
  return ⟨b, t, bc, tc, s.scanned⟩

/-- `load_next_chunk`, compare.rs:390-402. -/
def loadNextChunk (s : RopeScanner) : Option RopeScanner := do
  let (b, bc) ← loadNext s.base s.baseChunk
  let (t, tc) ← loadNext s.target s.targetChunk
  return ⟨b, t, bc, tc, s.scanned⟩

/-- The loop `while idx > 1 && !is_char_boundary(len - idx) { idx -= 1 }`,
compare.rs:251-253. -/
def roundBack (chunk : List UInt8) : Nat → Nat
  | 0 => 0
  | 1 => 1
  | k + 2 => if isCharBoundary chunk (chunk.length - (k + 2)) then k + 2 else roundBack chunk (k + 1)

/-- The `loop` of `find_ne_char_back`, compare.rs:246-268.  `ne_idx_rev` is the
fallback, to which the vectorised one is equal (C60).  The first argument bounds
the number of rounds. -/
def backLoop (stop : Option Nat) : Nat → RopeScanner → Option (RopeScanner × Nat)
  | 0, _ => none
  | fuel + 1, s =>
    match neIdxRevFallback s.baseChunk s.targetChunk with
    | some idx => some (s, minStop stop (s.scanned + roundBack s.baseChunk idx))
    | none => do
      let scanLen := min s.targetChunk.length s.baseChunk.length
      let bc ← strSlice s.baseChunk 0 (s.baseChunk.length - scanLen)
      let tc ← strSlice s.targetChunk 0 (s.targetChunk.length - scanLen)
      let s : RopeScanner := ⟨s.base, s.target, bc, tc, s.scanned + scanLen⟩
      if stopReached stop s.scanned then return (s, minStop stop s.scanned)
      else
        let s ← s.loadPrevChunk
        if s.baseChunk.isEmpty || s.targetChunk.isEmpty then return (s, minStop stop s.scanned)
        else backLoop stop fuel s

/-- `find_ne_char_back`, compare.rs:226-270. -/
def findNeCharBack (s : RopeScanner) (baseOff targOff : Nat) (stop : Option Nat) : Option (RopeScanner × Nat) := do
  let base ← s.base.set baseOff
  let target ← s.target.set targOff
  let (baseLeaf, baseLeafOff) ← ← base.getLeaf
  let (targetLeaf, targetLeafOff) ← ← target.getLeaf
  let bc ← strSlice baseLeaf 0 baseLeafOff
  let tc ← strSlice targetLeaf 0 targetLeafOff
  backLoop stop (base.root.len + target.root.len + 1) ⟨base, target, bc, tc, 0⟩

/-- The `loop` of `find_ne_char`, compare.rs:311-331; the `while` loop in it is
`backToBoundary`.  The first argument bounds the number of rounds. -/
def forwardLoop (stop : Option Nat) : Nat → RopeScanner → Option (RopeScanner × Nat)
  | 0, _ => none
  | fuel + 1, s =>
    match neIdxFallback s.baseChunk s.targetChunk with
    | some idx => some (s, minStop stop (s.scanned + backToBoundary s.baseChunk idx))
    | none => do
      let scanLen := min s.targetChunk.length s.baseChunk.length
      let bc ← strSlice s.baseChunk scanLen s.baseChunk.length
      let tc ← strSlice s.targetChunk scanLen s.targetChunk.length
      let s : RopeScanner := ⟨s.base, s.target, bc, tc, s.scanned + scanLen⟩
      if stopReached stop s.scanned then return (s, minStop stop s.scanned)
      else
        let s ← s.loadNextChunk
        if s.baseChunk.isEmpty || s.targetChunk.isEmpty then return (s, minStop stop s.scanned)
        else forwardLoop stop fuel s

/-- `find_ne_char`, compare.rs:293-333. -/
def findNeChar (s : RopeScanner) (baseOff targOff : Nat) (stop : Option Nat) : Option (RopeScanner × Nat) := do
  let base ← s.base.set baseOff
  let target ← s.target.set targOff
  let (baseLeaf, baseLeafOff) ← ← base.getLeaf
  let (targetLeaf, targetLeafOff) ← ← target.getLeaf
  let bc ← strSlice baseLeaf baseLeafOff baseLeaf.length
  let tc ← strSlice targetLeaf targetLeafOff targetLeaf.length
  forwardLoop stop (base.root.len + target.root.len + 1) ⟨base, target, bc, tc, 0⟩

/-- The second half of `find_min_diff_range`, compare.rs:364-373. -/
def findMinDiffEnd (s : RopeScanner) (bEnd tEnd start : Nat) : Option Nat := do
  let unscanned ← usizeSub (min bEnd tEnd) start
  if unscanned = 0 then return 0
  else return (← s.findNeCharBack bEnd tEnd (some unscanned)).2

/-- `find_min_diff_range`, compare.rs:359-374; the scanner is not used afterwards. -/
def findMinDiffRange (s : RopeScanner) : Option (Nat × Nat) := do
  let bEnd := s.base.root.len
  let tEnd := s.target.root.len
  let (s, start) ← s.findNeChar 0 0 none
  return (start, ← s.findMinDiffEnd bEnd tEnd start)

end RopeScanner

end Xi
