import Verif.Rope.Tree
import Verif.Rope.Metric

/-!
# Model of `rust/rope/src/breaks.rs`
-/

namespace Xi

namespace Breaks

/-- `MIN_LEAF`, breaks.rs:26. -/
abbrev minLeaf : Nat := 32

/-- `MAX_LEAF`, breaks.rs:27. -/
abbrev maxLeaf : Nat := 64

end Breaks

/-- `struct BreaksLeaf`, breaks.rs:33-38. -/
structure BreaksLeaf where
  len : Nat
  data : List Nat
deriving DecidableEq, Repr

/-- `struct BreaksInfo`, breaks.rs:42: the number of breaks. -/
structure BreaksInfo where
  count : Nat
deriving DecidableEq, Repr

namespace BreaksLeaf

/-- The second half of `push_maybe_split`, breaks.rs:64-78. -/
def splitOff (l : BreaksLeaf) : Option (BreaksLeaf × Option BreaksLeaf) :=
  if l.data.length ≤ Breaks.maxLeaf then some (l, none)
  else do
    let splitpoint := l.data.length / 2
    let splitpointUnits ← l.data[splitpoint - 1]?
    if (l.data.drop splitpoint).any (· < splitpointUnits) ∨ l.len < splitpointUnits then none
    else
      return (⟨splitpointUnits, l.data.take splitpoint⟩,
        some ⟨l.len - splitpointUnits, (l.data.drop splitpoint).map (· - splitpointUnits)⟩)

/-- `push_maybe_split`, breaks.rs:53-79. -/
def push (self other : BreaksLeaf) (iv : Interval) : Option (BreaksLeaf × Option BreaksLeaf) :=
  let data := self.data ++ (other.data.filter (fun v => iv.start < v ∧ v ≤ iv.stop)).map (fun v => v - iv.start + self.len)
  if min iv.stop other.len < iv.start then none
  else splitOff ⟨self.len + (min iv.stop other.len - iv.start), data⟩

/-- `slice::binary_search` on a vector that strictly increases: whether `x` is
there, and its index or the one where it would be inserted. -/
def binarySearch (data : List Nat) (x : Nat) : Bool × Nat := (data.contains x, (data.filter (· < x)).length)

/-- `match data.binary_search(&x) { Ok(n) => n + 1, Err(n) => n }`, as in
breaks.rs:125-128 and 149-152. -/
def upTo (data : List Nat) (x : Nat) : Nat := match binarySearch data x with
  | (true, n) => n + 1
  | (false, n) => n

end BreaksLeaf

/-- `impl Leaf for BreaksLeaf`, `impl NodeInfo for BreaksInfo`, breaks.rs:44-92. -/
instance : TreeLeaf BreaksLeaf BreaksInfo where
  len l := l.len
  isOkChild l := l.data.length ≥ Breaks.minLeaf
  push := BreaksLeaf.push
  default := ⟨0, []⟩
  computeInfo l := ⟨l.data.length⟩
  accumulate a b := ⟨a.count + b.count⟩

/-- The loop of `BreaksMetric::prev`, breaks.rs:136-145; `last` is the element
before. -/
def breaksPrev (offset : Nat) : Option Nat → List Nat → Option Nat
  | last, [] => last
  | last, v :: rest => if offset ≤ v then last else breaksPrev offset (some v) rest

/-- `BreaksMetric`, breaks.rs:109-164. -/
def breaksMetric : Metric BreaksLeaf BreaksInfo where
  measure info _ := info.count
  toBaseUnits l m :=
    if m > l.data.length then some (l.len + 1)
    else if m = 0 then some 0
    else l.data[m - 1]?
  fromBaseUnits l b := some (BreaksLeaf.upTo l.data b)
  isBoundary l offset := some (BreaksLeaf.binarySearch l.data offset).1
  prev l offset := some (breaksPrev offset none l.data)
  next l offset :=
    let n := BreaksLeaf.upTo l.data offset
    if n = l.data.length then some none else (l.data[n]?).map some
  canFragment := true

/-- `BreaksBaseMetric`, breaks.rs:169-197. -/
def breaksBaseMetric : Metric BreaksLeaf BreaksInfo where
  measure _ len := len
  toBaseUnits _ m := some m
  fromBaseUnits _ b := some b
  isBoundary := breaksMetric.isBoundary
  prev := breaksMetric.prev
  next := breaksMetric.next
  canFragment := true

/-- `type Breaks`, breaks.rs:24. -/
abbrev Breaks := Node BreaksLeaf BreaksInfo

namespace Breaks

/-- `Breaks::new_no_break`, breaks.rs:204-207. -/
def newNoBreak (len : Nat) : Breaks := .fromLeaf ⟨len, []⟩

/-- `Node::count::<BreaksMetric>`, tree.rs:472-474. -/
def count (b : Breaks) (offset : Nat) : Option Nat := b.convertMetrics breaksBaseMetric breaksMetric offset

/-- `Node::count_base_units::<BreaksMetric>`, tree.rs:489-491. -/
def countBaseUnits (b : Breaks) (n : Nat) : Option Nat := b.convertMetrics breaksMetric breaksBaseMetric n

end Breaks

/-- `struct BreakBuilder`, breaks.rs:210-213. -/
structure BreakBuilder where
  b : TreeBuilder BreaksLeaf BreaksInfo
  leaf : BreaksLeaf

namespace BreakBuilder

/-- `BreakBuilder::new`, breaks.rs:215-224. -/
def new : BreakBuilder := ⟨.new, ⟨0, []⟩⟩

/-- `BreakBuilder::add_break`, breaks.rs:226-233. -/
def addBreak (self : BreakBuilder) (len : Nat) : Option BreakBuilder := do
  let self ← if self.leaf.data.length = Breaks.maxLeaf then do
      pure (⟨← self.b.push (.fromLeaf self.leaf), ⟨0, []⟩⟩ : BreakBuilder)
    else pure self
  return ⟨self.b, ⟨self.leaf.len + len, self.leaf.data ++ [self.leaf.len + len]⟩⟩

/-- `BreakBuilder::add_no_break`, breaks.rs:235-237. -/
def addNoBreak (self : BreakBuilder) (len : Nat) : BreakBuilder := ⟨self.b, ⟨self.leaf.len + len, self.leaf.data⟩⟩

/-- `BreakBuilder::build`, breaks.rs:239-242. -/
def build (self : BreakBuilder) : Option Breaks := do
  (← self.b.push (.fromLeaf self.leaf)).build

end BreakBuilder

end Xi
