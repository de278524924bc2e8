import Verif.Rope.Metric

/-!
# Model of `rust/rope/src/tree.rs`: cursors

Methods that change the cursor return the new cursor (and their result); an outer
`none` is a panic.
-/

namespace Xi

/-- `CURSOR_CACHE_SIZE`, tree.rs:616. -/
abbrev cursorCacheSize : Nat := 4

/-- `struct Cursor`, tree.rs:629-651. -/
structure Cursor (L I : Type) where
  root : Node L I
  position : Nat
  cache : List (Option (Node L I × Nat))
  leaf : Option L
  offsetOfLeaf : Nat

variable {L I : Type}

namespace Cursor

/-- The inner `loop` of `descend`, tree.rs:954-965, over what is left of the
children: the index of the child chosen, the child, and its offset. -/
def descendScan (position : Nat) : List (Node L I) → Nat → Nat → Option (Nat × Node L I × Nat)
  | [], _, _ => none
  | [child], i, offset => some (i, child, offset)
  | child :: rest, i, offset =>
    if offset + child.len > position then some (i, child, offset)
    else descendScan position rest (i + 1) (offset + child.len)

/-- `self.cache[cache_ix] = Some((node, i))` if `cache_ix` is in the cache,
tree.rs:966-969. -/
def cacheAt (cache : List (Option (Node L I × Nat))) (height : Nat) (entry : Node L I × Nat) :
    List (Option (Node L I × Nat)) :=
  if height - 1 < cursorCacheSize then cache.set (height - 1) (some entry) else cache

/-- The outer loop of `descend`, tree.rs:950-971; the first argument bounds the
height. -/
def descendLoop (position : Nat) : Nat → Node L I → Nat → List (Option (Node L I × Nat)) →
    Option (L × Nat × List (Option (Node L I × Nat)))
  | _, .leaf _ _ l, offset, cache => some (l, offset, cache)
  | 0, .internal _ _ _ _, _, _ => none
  | fuel + 1, .internal h len info cs, offset, cache => do
    let (i, child, offset) ← descendScan position cs 0 offset
    descendLoop position fuel child offset (cacheAt cache h (.internal h len info cs, i))

/-- `Cursor::descend`, tree.rs:949-974. -/
def descend (c : Cursor L I) : Option (Cursor L I) := do
  let (l, offset, cache) ← descendLoop c.position c.root.height c.root 0 c.cache
  return { c with leaf := some l, offsetOfLeaf := offset, cache := cache }

/-- `Cursor::new`, tree.rs:655-665. -/
def new (n : Node L I) (position : Nat) : Option (Cursor L I) :=
  descend ⟨n, position, List.replicate cursorCacheSize none, none, 0⟩

/-- `Cursor::get_leaf`, tree.rs:682-684. -/
def getLeaf (c : Cursor L I) : Option (Option (L × Nat)) :=
  match c.leaf with
  | none => some none
  | some l => if c.offsetOfLeaf ≤ c.position then some (some (l, c.position - c.offsetOfLeaf)) else none

/-- The inner loop of `next_leaf`, tree.rs:890-894: down to the first leaf of
`node`, `k` levels below. -/
def fillFirst : Nat → Node L I → List (Option (Node L I × Nat)) → Option (Node L I × List (Option (Node L I × Nat)))
  | 0, node, cache => some (node, cache)
  | k + 1, node, cache => do
    let cs ← node.getChildren
    let child ← cs[0]?
    fillFirst k child (cache.set k (some (node, 0)))

/-- The inner loop of `prev_leaf`, tree.rs:926-931: down to the last leaf. -/
def fillLast : Nat → Node L I → List (Option (Node L I × Nat)) → Option (Node L I × List (Option (Node L I × Nat)))
  | 0, node, cache => some (node, cache)
  | k + 1, node, cache => do
    let cs ← node.getChildren
    if cs.length = 0 then none
    let child ← cs[cs.length - 1]?
    fillLast k child (cache.set k (some (node, cs.length - 1)))

/-- What the search through the cache in `next_leaf` and `prev_leaf` found: a
missing entry, the next leaf with the new cache, or nothing. -/
inductive CacheStep (L I : Type) where
  | missing
  | found (l : L) (cache : List (Option (Node L I × Nat)))
  | exhausted

/-- The `for` loop of `next_leaf`, tree.rs:881-899, from index `i` on; the first
argument is the number of entries left. -/
def nextScan (cache : List (Option (Node L I × Nat))) : Nat → Nat → Option (CacheStep L I)
  | 0, _ => some .exhausted
  | left + 1, i => do
    match ← cache[i]? with
    | none => return .missing
    | some (node, j) =>
      let cs ← node.getChildren
      if j + 1 < cs.length then
        let child ← cs[j + 1]?
        let (nodeDown, cache) ← fillFirst i child (cache.set i (some (node, j + 1)))
        return .found (← nodeDown.getLeaf) cache
      else nextScan cache left (i + 1)

/-- The `for` loop of `prev_leaf`, tree.rs:917-938. -/
def prevScan (cache : List (Option (Node L I × Nat))) : Nat → Nat → Option (CacheStep L I)
  | 0, _ => some .exhausted
  | left + 1, i => do
    match ← cache[i]? with
    | none => return .missing
    | some (node, j) =>
      if j > 0 then
        let cs ← node.getChildren
        let child ← cs[j - 1]?
        let (nodeDown, cache) ← fillLast i child (cache.set i (some (node, j - 1)))
        return .found (← nodeDown.getLeaf) cache
      else prevScan cache left (i + 1)

variable [TreeLeaf L I]

/-- `Cursor::set`, tree.rs:691-701. -/
def set (c : Cursor L I) (position : Nat) : Option (Cursor L I) :=
  let c := { c with position := position }
  match c.leaf with
  | some l =>
    if c.position ≥ c.offsetOfLeaf ∧ c.position < c.offsetOfLeaf + TreeLeaf.len l then some c else c.descend
  | none => c.descend

/-- `Cursor::next_leaf`, tree.rs:878-906; the result is that of `get_leaf` on the
new cursor. -/
def nextLeaf (c : Cursor L I) : Option (Cursor L I × Option (L × Nat)) :=
  match c.leaf with
  | none => some (c, none)
  | some leaf => do
    let c := { c with position := c.offsetOfLeaf + TreeLeaf.len leaf }
    match ← nextScan c.cache cursorCacheSize 0 with
    | .missing => return ({ c with leaf := none }, none)
    | .found l cache =>
      let c := { c with cache := cache, leaf := some l, offsetOfLeaf := c.position }
      return (c, ← c.getLeaf)
    | .exhausted =>
      if c.offsetOfLeaf + TreeLeaf.len leaf = c.root.len then return ({ c with leaf := none }, none)
      else
        let c ← c.descend
        return (c, ← c.getLeaf)

/-- `Cursor::prev_leaf`, tree.rs:911-943. -/
def prevLeaf (c : Cursor L I) : Option (Cursor L I × Option (L × Nat)) :=
  if c.offsetOfLeaf = 0 then some ({ c with leaf := none, position := 0 }, none)
  else do
    match ← prevScan c.cache cursorCacheSize 0 with
    | .missing => return ({ c with leaf := none }, none)
    | .found l cache =>
      if c.offsetOfLeaf < TreeLeaf.len l then none
      else
        let c := { c with
          cache := cache, leaf := some l, offsetOfLeaf := c.offsetOfLeaf - TreeLeaf.len l
          position := c.offsetOfLeaf - TreeLeaf.len l }
        return (c, ← c.getLeaf)
    | .exhausted =>
      let c ← descend { c with position := c.offsetOfLeaf - 1 }
      let c := { c with position := c.offsetOfLeaf }
      return (c, ← c.getLeaf)

/-- The `for` loop of `measure_leaf`, tree.rs:983-991: the child at which it
breaks, with what is left of `pos` and the measure of the children before. -/
def measureScan (M : Metric L I) : List (Node L I) → Nat → Nat → Option (Node L I) × Nat × Nat
  | [], pos, metric => (none, pos, metric)
  | child :: rest, pos, metric =>
    if pos < child.len then (some child, pos, metric)
    else measureScan M rest (pos - child.len) (metric + child.measure M)

/-- The `while` loop of `measure_leaf`, tree.rs:982-992. -/
def measureLoop (M : Metric L I) : Nat → Node L I → Nat → Nat → Option Nat
  | _, .leaf _ _ _, _, metric => some metric
  | 0, .internal _ _ _ _, _, _ => none
  | fuel + 1, .internal h len info cs, pos, metric =>
    match measureScan M cs pos metric with
    | (some child, pos, metric) => measureLoop M fuel child pos metric
    | (none, pos, metric) => measureLoop M fuel (.internal h len info cs) pos metric

/-- `Cursor::measure_leaf`, tree.rs:979-994. -/
def measureLeaf (c : Cursor L I) (M : Metric L I) (pos : Nat) : Option Nat :=
  measureLoop M (c.root.height + pos + 1) c.root pos 0

/-- The inner loop of `descend_metric`, tree.rs:1010-1022. -/
def descendMetricScan (M : Metric L I) : List (Node L I) → Nat → Nat → Nat → Option (Nat × Node L I × Nat × Nat)
  | [], _, _, _ => none
  | [child], i, offset, measure => some (i, child, offset, measure)
  | child :: rest, i, offset, measure =>
    if child.measure M ≥ measure then some (i, child, offset, measure)
    else descendMetricScan M rest (i + 1) (offset + child.len) (measure - child.measure M)

/-- The outer loop of `descend_metric`, tree.rs:1005-1028. -/
def descendMetricLoop (M : Metric L I) : Nat → Node L I → Nat → Nat → List (Option (Node L I × Nat)) →
    Option (L × Nat × List (Option (Node L I × Nat)))
  | _, .leaf _ _ l, offset, _, cache => some (l, offset, cache)
  | 0, .internal _ _ _ _, _, _, _ => none
  | fuel + 1, .internal h len info cs, offset, measure, cache => do
    let (i, child, offset, measure) ← descendMetricScan M cs 0 offset measure
    descendMetricLoop M fuel child offset measure (cacheAt cache h (.internal h len info cs, i))

/-- `Cursor::descend_metric`, tree.rs:1004-1032. -/
def descendMetric (c : Cursor L I) (M : Metric L I) (measure : Nat) : Option (Cursor L I) := do
  let (l, offset, cache) ← descendMetricLoop M c.root.height c.root 0 measure c.cache
  return { c with leaf := some l, position := offset, offsetOfLeaf := offset, cache := cache }

/-- `Cursor::is_boundary`, tree.rs:712-730. -/
def isBoundary (c : Cursor L I) (M : Metric L I) : Option (Cursor L I × Bool) :=
  match c.leaf with
  | none => some (c, false)
  | some leaf =>
    if c.position = c.offsetOfLeaf ∧ M.canFragment = false then some (c, true)
    else if c.position = 0 ∨ c.position > c.offsetOfLeaf then
      if c.offsetOfLeaf ≤ c.position then do
        return (c, ← M.isBoundary leaf (c.position - c.offsetOfLeaf))
      else none
    else do
      let (c, r) ← c.prevLeaf
      let (l, _) ← r
      let result ← M.isBoundary l (TreeLeaf.len l)
      let (c, _) ← c.nextLeaf
      return (c, result)

/-- `Cursor::last_inside_leaf`, tree.rs:849-859. -/
def lastInsideLeaf (c : Cursor L I) (M : Metric L I) (origPos : Nat) : Option (Cursor L I × Option Nat) := do
  let l ← c.leaf
  let len := TreeLeaf.len l
  let atEnd ← if c.offsetOfLeaf + len < origPos then M.isBoundary l len else some false
  if atEnd then
    let (c, _) ← c.nextLeaf
    return (c, some c.position)
  else
    match ← M.prev l len with
    | none => return (c, none)
    | some offsetInLeaf =>
      let c := { c with position := c.offsetOfLeaf + offsetInLeaf }
      return (c, some c.position)

/-- `Cursor::next_inside_leaf`, tree.rs:863-873. -/
def nextInsideLeaf (c : Cursor L I) (M : Metric L I) : Option (Cursor L I × Option Nat) := do
  let l ← c.leaf
  if c.position < c.offsetOfLeaf then none
  else
    match ← M.next l (c.position - c.offsetOfLeaf) with
    | none => return (c, none)
    | some offsetInLeaf =>
      if offsetInLeaf = TreeLeaf.len l ∧ c.offsetOfLeaf + offsetInLeaf ≠ c.root.len then
        let (c, _) ← c.nextLeaf
        return (c, some c.position)
      else
        let c := { c with position := c.offsetOfLeaf + offsetInLeaf }
        return (c, some c.position)

/-- `Cursor::prev` from the search in the previous leaf on, tree.rs:752-767. -/
def prevScanBack (c : Cursor L I) (M : Metric L I) (origPos : Nat) : Option (Cursor L I × Option Nat) := do
  let (c, r) ← c.prevLeaf
  if r.isNone then return (c, none)
  else
    let (c, r) ← c.lastInsideLeaf M origPos
    if r.isSome then return (c, r)
    else
      let measure ← c.measureLeaf M c.position
      if measure = 0 then return ({ c with leaf := none, position := 0 }, none)
      else
        let c ← c.descendMetric M measure
        c.lastInsideLeaf M origPos

/-- `Cursor::prev`, tree.rs:737-767. -/
def prev (c : Cursor L I) (M : Metric L I) : Option (Cursor L I × Option Nat) :=
  match c.leaf with
  | none => some ({ c with leaf := none }, none)
  | some l =>
    if c.position = 0 then some ({ c with leaf := none }, none)
    else if c.position < c.offsetOfLeaf then none
    else if c.position - c.offsetOfLeaf > 0 then do
      match ← M.prev l (c.position - c.offsetOfLeaf) with
      | some offsetInLeaf =>
        let c := { c with position := c.offsetOfLeaf + offsetInLeaf }
        return (c, some c.position)
      | none => c.prevScanBack M c.position
    else c.prevScanBack M c.position

/-- `Cursor::next`, tree.rs:774-800. -/
def next (c : Cursor L I) (M : Metric L I) : Option (Cursor L I × Option Nat) :=
  if c.position ≥ c.root.len ∨ c.leaf.isNone then some ({ c with leaf := none }, none)
  else do
    let (c, r) ← c.nextInsideLeaf M
    if r.isSome then return (c, r)
    else
      let (c, r) ← c.nextLeaf
      if r.isNone then return (c, none)
      else
        let (c, r) ← c.nextInsideLeaf M
        if r.isSome then return (c, r)
        else
          let measure ← c.measureLeaf M c.position
          let c ← c.descendMetric M (measure + 1)
          let (c, r) ← c.nextInsideLeaf M
          if r.isSome then return (c, r)
          else return ({ c with position := c.root.len, leaf := none }, none)

/-- `Cursor::at_or_next`, tree.rs:806-812. -/
def atOrNext (c : Cursor L I) (M : Metric L I) : Option (Cursor L I × Option Nat) := do
  let (c, b) ← c.isBoundary M
  if b then return (c, some c.position) else c.next M

/-- `Cursor::at_or_prev`, tree.rs:818-824. -/
def atOrPrev (c : Cursor L I) (M : Metric L I) : Option (Cursor L I × Option Nat) := do
  let (c, b) ← c.isBoundary M
  if b then return (c, some c.position) else c.prev M

/-- `CursorIter` run to its end, tree.rs:1039-1050, collected: the items; `none` if it
panics or the bound does not suffice. -/
def iterAll (M : Metric L I) : Nat → Cursor L I → Option (List Nat)
  | 0, _ => none
  | fuel + 1, c => do
    let (c, r) ← c.next M
    match r with
    | none => return []
    | some x => return x :: (← iterAll M fuel c)

end Cursor

end Xi
