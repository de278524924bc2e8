import Verif.Rope.Metric
import Verif.Rope.Str

/-!
# Model of `rust/rope/src/rope.rs`: ropes of strings
-/

namespace Xi

/-- `MIN_LEAF`, rope.rs:34. -/
abbrev minLeaf : Nat := 511

/-- `MAX_LEAF`, rope.rs:35. -/
abbrev maxLeaf : Nat := 1024

/-- `count_newlines`, rope.rs:335-337. -/
def countNewlines (s : List UInt8) : Nat := s.count newline

/-- `count_utf16_code_units`, rope.rs:339-350. -/
def countUtf16CodeUnits (s : List UInt8) : Nat :=
  s.foldl (fun n b =>
    let n := if isCont b then n else n + 1
    if b.toNat ≥ 0xf0 then n + 1 else n) 0

/-- The loop `while !s.is_char_boundary(splitpoint) { splitpoint -= 1; }`
(rope.rs:366-368); also the loops of `prev` (rope.rs:188-191, 308-311), which
count upwards what they go back.  Offset 0 is always a boundary. -/
def backToBoundary (s : List UInt8) : Nat → Nat
  | 0 => 0
  | k + 1 => if isCharBoundary s (k + 1) then k + 1 else backToBoundary s k

/-- `find_leaf_split`, rope.rs:361-372. -/
def findLeafSplit (s : List UInt8) (minsplit : Nat) : Option Nat :=
  if s.length < minLeaf then none
  else
    let splitpoint := min maxLeaf (s.length - minLeaf)
    if minsplit = 0 ∨ splitpoint < minsplit - 1 then none
    else
      match memrchr newline ((s.take splitpoint).drop (minsplit - 1)) with
      | some pos => some (minsplit + pos)
      | none => some (backToBoundary s splitpoint)

/-- `find_leaf_split_for_bulk`, rope.rs:352-354. -/
def findLeafSplitForBulk (s : List UInt8) : Option Nat := findLeafSplit s minLeaf

/-- `find_leaf_split_for_merge`, rope.rs:356-358. -/
def findLeafSplitForMerge (s : List UInt8) : Option Nat :=
  if s.length < maxLeaf then none else findLeafSplit s (max minLeaf (s.length - maxLeaf))

/-- `push_maybe_split` for `String`, rope.rs:103-116. -/
def strPush (self other : List UInt8) (iv : Interval) : Option (List UInt8 × Option (List UInt8)) := do
  let part ← strSlice other iv.start iv.stop
  let s := self ++ part
  if s.length ≤ maxLeaf then return (s, none)
  else
    let splitpoint ← findLeafSplitForMerge s
    let right ← strSlice s splitpoint s.length
    let left ← strSlice s 0 splitpoint
    return (left, some right)

/-- `struct RopeInfo`, rope.rs:119-123. -/
structure RopeInfo where
  lines : Nat
  utf16Size : Nat
deriving DecidableEq, Repr

/-- `impl Leaf for String`, `impl NodeInfo for RopeInfo`, rope.rs:94-141. -/
instance : TreeLeaf (List UInt8) RopeInfo where
  len s := s.length
  isOkChild s := s.length ≥ minLeaf
  push := strPush
  default := []
  computeInfo s := ⟨countNewlines s, countUtf16CodeUnits s⟩
  accumulate a b := ⟨a.lines + b.lines, a.utf16Size + b.utf16Size⟩

/-- `type Rope`, rope.rs:86. -/
abbrev Rope := Node (List UInt8) RopeInfo

/-- `len_utf8_from_first_byte`, rope.rs:216-223. -/
def lenUtf8FromFirstByte (b : UInt8) : Nat :=
  if b.toNat < 0x80 then 1 else if b.toNat < 0xe0 then 2 else if b.toNat < 0xf0 then 3 else 4

/-- `next` of `BaseMetric` and `Utf16CodeUnitsMetric`, rope.rs:197-206, 317-326. -/
def codepointNext (s : List UInt8) (offset : Nat) : Option (Option Nat) :=
  if offset = s.length then some none
  else do
    let b ← s[offset]?
    return some (offset + lenUtf8FromFirstByte b)

/-- `prev` of `BaseMetric` and `Utf16CodeUnitsMetric`, rope.rs:183-195, 303-315. -/
def codepointPrev (s : List UInt8) (offset : Nat) : Option (Option Nat) :=
  if offset = 0 then some none else some (some (backToBoundary s (offset - 1)))

/-- `BaseMetric`, rope.rs:164-211. -/
def baseMetric : Metric (List UInt8) RopeInfo where
  measure _ len := len
  toBaseUnits s m := if isCharBoundary s m then some m else none
  fromBaseUnits s b := if isCharBoundary s b then some b else none
  isBoundary s offset := some (isCharBoundary s offset)
  prev := codepointPrev
  next := codepointNext
  canFragment := false

/-- The loop of `LinesMetric::to_base_units`, rope.rs:246-252. -/
def linesToBase (s : List UInt8) : Nat → Nat → Option Nat
  | 0, offset => some offset
  | k + 1, offset => do
    let pos ← memchr newline (s.drop offset)
    linesToBase s k (offset + pos + 1)

/-- `LinesMetric`, rope.rs:226-272. -/
def linesMetric : Metric (List UInt8) RopeInfo where
  measure info _ := info.lines
  toBaseUnits s m := linesToBase s m 0
  fromBaseUnits s b := do return countNewlines (← strSlice s 0 b)
  isBoundary s offset := if offset = 0 then some false else do return (← s[offset - 1]?) == newline
  prev s offset :=
    if offset = 0 ∨ s.length < offset - 1 then none
    else some ((memrchr newline (s.take (offset - 1))).map (· + 1))
  next s offset :=
    if s.length < offset then none
    else some ((memchr newline (s.drop offset)).map (fun pos => offset + pos + 1))
  canFragment := true

/-- The loop of `Utf16CodeUnitsMetric::to_base_units`, rope.rs:286-297.  The two
lengths of a character are taken from its first byte; `fuel` bounds the number of
characters. -/
def utf16ToBase (m : Nat) : Nat → List UInt8 → Nat → Nat → Nat
  | 0, _, _, len8 => len8
  | _ + 1, [], _, len8 => len8
  | fuel + 1, b :: s, len16, len8 =>
    if len16 ≥ m then len8
    else
      utf16ToBase m fuel ((b :: s).drop (lenUtf8FromFirstByte b)) (len16 + if b.toNat ≥ 0xf0 then 2 else 1)
        (len8 + lenUtf8FromFirstByte b)

/-- `Utf16CodeUnitsMetric`, rope.rs:277-331. -/
def utf16Metric : Metric (List UInt8) RopeInfo where
  measure info _ := info.utf16Size
  toBaseUnits s m := some (utf16ToBase m s.length s 0 0)
  fromBaseUnits s b := do return countUtf16CodeUnits (← strSlice s 0 b)
  isBoundary s offset := some (isCharBoundary s offset)
  prev := codepointPrev
  next := codepointNext
  canFragment := false

/-- `Node::count`, tree.rs:472-474. -/
def Node.count (n : Rope) (M : Metric (List UInt8) RopeInfo) (offset : Nat) : Option Nat :=
  n.convertMetrics baseMetric M offset

/-- `Node::count_base_units`, tree.rs:489-491. -/
def Node.countBaseUnits (n : Rope) (M : Metric (List UInt8) RopeInfo) (offset : Nat) : Option Nat :=
  n.convertMetrics M baseMetric offset

namespace Rope

/-- The `while` loop of `push_str`, rope.rs:590-594.  Every round takes away at
least one byte. -/
def pushStrLoop : Nat → TreeBuilder (List UInt8) RopeInfo → List UInt8 → Option (TreeBuilder (List UInt8) RopeInfo)
  | 0, b, s => if s.isEmpty then some b else none
  | fuel + 1, b, s =>
    if s.isEmpty then some b
    else do
      let splitpoint ← if s.length > maxLeaf then findLeafSplitForBulk s else some s.length
      let b ← b.pushLeaf (← strSlice s 0 splitpoint)
      pushStrLoop fuel b (← strSlice s splitpoint s.length)

/-- `TreeBuilder::push_str`, rope.rs:583-595. -/
def pushStr (b : TreeBuilder (List UInt8) RopeInfo) (s : List UInt8) : Option (TreeBuilder (List UInt8) RopeInfo) :=
  if s.length ≤ maxLeaf then
    if s.isEmpty then some b else b.pushLeaf s
  else pushStrLoop s.length b s

/-- `Rope::from_str`, rope.rs:378-382. -/
def fromStr (s : List UInt8) : Option Rope := do
  (← pushStr TreeBuilder.new s).build

/-- `impl Add for Rope`, rope.rs:636-644. -/
def add (a b : Rope) : Option Rope := do
  (← (← TreeBuilder.new.push a).push b).build

/-- `Rope::slice`, rope.rs:395-397. -/
def slice (r : Rope) (iv : Bounds) : Option Rope := do
  r.subseq (← iv.intoInterval r.len)

/-- `Node::edit` with any range and new text, tree.rs:415-427. -/
def edit (r : Rope) (iv : Bounds) (new : Rope) : Option Rope := do
  Node.edit r (← iv.intoInterval r.len) new

/-- `Rope::line_of_offset`, rope.rs:460-462. -/
def lineOfOffset (r : Rope) (offset : Nat) : Option Nat := r.count linesMetric offset

/-- `Rope::offset_of_line`, rope.rs:477-488. -/
def offsetOfLine (r : Rope) (line : Nat) : Option Nat :=
  let maxLine := r.measure linesMetric + 1
  if line > maxLine then none
  else if line = maxLine then some r.len
  else r.countBaseUnits linesMetric line

end Rope

end Xi
