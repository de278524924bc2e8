import Verif.Rope.Interval

/-!
# Model of `rust/rope/src/tree.rs`: nodes and the tree builder

`Arc` and copy-on-write are not modelled: nodes are values.  A Rust panic,
including a failed debug assertion, is `none`.  Loops and recursions that Lean
cannot see to terminate take a bound (`fuel`) and return `none` when it is used
up; the property theorems say that the functions return `some`, so the bounds
given are always enough.
-/

namespace Xi

/-- The traits `NodeInfo` (tree.rs:25-61) and `Leaf` (tree.rs:76-108): `L` is the
type of leaves, `I` that of the infos.  `push l other iv` is `push_maybe_split`:
the new value of `l` and what was split off. -/
class TreeLeaf (L : Type) (I : outParam Type) where
  len : L → Nat
  isOkChild : L → Bool
  push : L → L → Interval → Option (L × Option L)
  default : L
  computeInfo : L → I
  accumulate : I → I → I

/-- `MIN_CHILDREN`, tree.rs:23. -/
def minChildren : Nat := 4

/-- `MAX_CHILDREN`, tree.rs:24. -/
def maxChildren : Nat := 8

/-- `struct Node`, `NodeBody`, `enum NodeVal`, tree.rs:123-138.  The height of a
leaf node is always 0 (only `from_leaf` makes leaf nodes). -/
inductive Node (L I : Type) where
  | leaf (len : Nat) (info : I) (l : L)
  | internal (height len : Nat) (info : I) (children : List (Node L I))

variable {L I : Type}

namespace Node

/-- `Node::len`, tree.rs:227-229. -/
def len : Node L I → Nat
  | .leaf len _ _ => len
  | .internal _ len _ _ => len

/-- The field `info`. -/
def info : Node L I → I
  | .leaf _ info _ => info
  | .internal _ _ info _ => info

/-- `Node::is_empty`, tree.rs:231-233. -/
def isEmpty (n : Node L I) : Bool := n.len == 0

/-- `Node::height`, tree.rs:243-245. -/
def height : Node L I → Nat
  | .leaf _ _ _ => 0
  | .internal height _ _ _ => height

/-- `Node::interval`, tree.rs:251-253, with the default `NodeInfo::interval`
(tree.rs:57-60), which no instance overrides. -/
def interval (n : Node L I) : Interval := ⟨0, n.len⟩

/-- `Node::get_children`, tree.rs:255-261. -/
def getChildren : Node L I → Option (List (Node L I))
  | .leaf _ _ _ => none
  | .internal _ _ _ cs => some cs

/-- `Node::get_leaf`, tree.rs:263-269. -/
def getLeaf : Node L I → Option L
  | .leaf _ _ l => some l
  | .internal _ _ _ _ => none

end Node

variable [TreeLeaf L I]

/-- `Leaf::subseq`, tree.rs:102-108. -/
def TreeLeaf.subseq (l : L) (iv : Interval) : Option L := do
  let (result, rest) ← TreeLeaf.push TreeLeaf.default l iv
  if rest.isSome then none else some result

namespace Node

/-- `Node::from_leaf`, tree.rs:199-203. -/
def fromLeaf (l : L) : Node L I := .leaf (TreeLeaf.len l) (TreeLeaf.computeInfo l) l

/-- `Node::is_ok_child`, tree.rs:287-292. -/
def isOkChild : Node L I → Bool
  | .leaf _ _ l => TreeLeaf.isOkChild l
  | .internal _ _ _ cs => cs.length ≥ minChildren

/-- `Node::from_nodes`, tree.rs:211-225, with its debug assertions. -/
def fromNodes (nodes : List (Node L I)) : Option (Node L I) :=
  match nodes with
  | [] => none
  | n :: rest =>
    if nodes.length > 1 ∧ nodes.length ≤ maxChildren ∧ n.isOkChild = true ∧
        rest.all (fun c => c.height == n.height && c.isOkChild) = true then
      some (.internal (n.height + 1) (rest.foldl (fun s c => s + c.len) n.len)
        (rest.foldl (fun i c => TreeLeaf.accumulate L i c.info) n.info) nodes)
    else none

/-- `Node::merge_nodes`, tree.rs:294-307. -/
def mergeNodes (children1 children2 : List (Node L I)) : Option (Node L I) := do
  let nChildren := children1.length + children2.length
  if nChildren ≤ maxChildren then
    fromNodes (children1 ++ children2)
  else
    let splitpoint := min maxChildren (nChildren - minChildren)
    let left := (children1 ++ children2).take splitpoint
    let right := (children1 ++ children2).drop splitpoint
    fromNodes [← fromNodes left, ← fromNodes right]

/-- `Node::merge_leaves`, tree.rs:309-332. -/
def mergeLeaves (rope1 rope2 : Node L I) : Option (Node L I) := do
  let leaf1 ← rope1.getLeaf
  let leaf2 ← rope2.getLeaf
  if TreeLeaf.isOkChild leaf1 && TreeLeaf.isOkChild leaf2 then
    fromNodes [rope1, rope2]
  else
    let (leaf1', new) ← TreeLeaf.push leaf1 leaf2 ⟨0, TreeLeaf.len leaf2⟩
    match new with
    | some new => fromNodes [fromLeaf leaf1', fromLeaf new]
    | none => some (fromLeaf leaf1')

/-- `Node::concat`, tree.rs:334-374.  Each recursive call descends one level in
one of the arguments. -/
def concatAux : Nat → Node L I → Node L I → Option (Node L I)
  | 0, _, _ => none
  | fuel + 1, rope1, rope2 =>
    let h1 := rope1.height
    let h2 := rope2.height
    if h1 < h2 then do
      let children2 ← rope2.getChildren
      if h1 == h2 - 1 && rope1.isOkChild then
        mergeNodes [rope1] children2
      else
        match children2 with
        | [] => none
        | c :: rest =>
          let newrope ← concatAux fuel rope1 c
          if newrope.height == h2 - 1 then mergeNodes [newrope] rest
          else mergeNodes (← newrope.getChildren) rest
    else if h1 = h2 then do
      if rope1.isOkChild && rope2.isOkChild then fromNodes [rope1, rope2]
      else if h1 == 0 then mergeLeaves rope1 rope2
      else mergeNodes (← rope1.getChildren) (← rope2.getChildren)
    else do
      let children1 ← rope1.getChildren
      if h2 == h1 - 1 && rope2.isOkChild then
        mergeNodes children1 [rope2]
      else
        match children1.getLast? with
        | none => none
        | some c =>
          let rest := children1.dropLast
          let newrope ← concatAux fuel c rope2
          if newrope.height == h1 - 1 then mergeNodes rest [newrope]
          else mergeNodes rest (← newrope.getChildren)

/-- `Node::concat`, tree.rs:334-374. -/
def concat (rope1 rope2 : Node L I) : Option (Node L I) :=
  concatAux (rope1.height + rope2.height + 1) rope1 rope2

end Node

/-- `struct TreeBuilder`, tree.rs:501-509.  The head of the list is the top of
the stack; the vectors in it are in their own order. -/
structure TreeBuilder (L I : Type) where
  stack : List (List (Node L I))

namespace TreeBuilder

/-- `TreeBuilder::new`, tree.rs:513-515. -/
def new : TreeBuilder L I := ⟨[]⟩

/-- `TreeBuilder::pop`, tree.rs:606-613, applied to the vector popped. -/
def popNodes (nodes : List (Node L I)) : Option (Node L I) :=
  match nodes with
  | [n] => some n
  | nodes => Node.fromNodes nodes

/-- The case of equal heights in `TreeBuilder::push`, tree.rs:530-558: append `n`
to the vector on top of the stack. -/
def pushEqual (tos : List (Node L I)) (n : Node L I) : Option (List (Node L I)) := do
  let last ← tos.getLast?
  let rest := tos.dropLast
  if last.isOkChild && n.isOkChild then
    some (tos ++ [n])
  else if n.height == 0 then
    let l ← last.getLeaf
    let (l', newLeaf) ← TreeLeaf.push l (← n.getLeaf) ⟨0, n.len⟩
    match newLeaf with
    | some newLeaf => some (rest ++ [.fromLeaf l', .fromLeaf newLeaf])
    | none => some (rest ++ [.fromLeaf l'])
  else
    let children1 ← last.getChildren
    let children2 ← n.getChildren
    let nChildren := children1.length + children2.length
    if nChildren ≤ maxChildren then
      some (rest ++ [← Node.fromNodes (children1 ++ children2)])
    else
      let splitpoint := min maxChildren (nChildren - minChildren)
      let left := (children1 ++ children2).take splitpoint
      let right := (children1 ++ children2).drop splitpoint
      some (rest ++ [← Node.fromNodes left, ← Node.fromNodes right])

/-- The loop of `TreeBuilder::push`, tree.rs:519-570.  Every iteration that does
not end the loop takes a vector off the stack. -/
def pushAux : List (List (Node L I)) → Node L I → Option (List (List (Node L I)))
  | [], n => some [[n]]
  | tos :: rest, n => do
    let first ← tos.head?
    if first.height < n.height then
      pushAux rest (← Node.concat (← popNodes tos) n)
    else if first.height = n.height then
      let tos' ← pushEqual tos n
      if tos'.length < maxChildren then some (tos' :: rest)
      else pushAux rest (← popNodes tos')
    else some ([n] :: tos :: rest)

/-- `TreeBuilder::push`, tree.rs:518-570. -/
def push (b : TreeBuilder L I) (n : Node L I) : Option (TreeBuilder L I) := do
  return ⟨← pushAux b.stack n⟩

/-- `TreeBuilder::push_leaf`, tree.rs:580-582. -/
def pushLeaf (b : TreeBuilder L I) (l : L) : Option (TreeBuilder L I) := b.push (.fromLeaf l)

/-- `TreeBuilder::push_leaves`, tree.rs:573-577. -/
def pushLeaves (b : TreeBuilder L I) (ls : List L) : Option (TreeBuilder L I) := ls.foldlM pushLeaf b

/-- `TreeBuilder::push_leaf_slice`, tree.rs:585-587. -/
def pushLeafSlice (b : TreeBuilder L I) (l : L) (iv : Interval) : Option (TreeBuilder L I) := do
  b.push (.fromLeaf (← TreeLeaf.subseq l iv))

/-- The loop of `TreeBuilder::build`, tree.rs:597-601. -/
def buildAux : List (List (Node L I)) → Node L I → Option (Node L I)
  | [], n => some n
  | tos :: rest, n => do buildAux rest (← Node.concat (← popNodes tos) n)

/-- `TreeBuilder::build`, tree.rs:593-603. -/
def build (b : TreeBuilder L I) : Option (Node L I) :=
  match b.stack with
  | [] => some (.fromLeaf TreeLeaf.default)
  | tos :: rest => do buildAux rest (← popNodes tos)

end TreeBuilder

namespace Node

mutual

/-- `Node::push_subseq`, tree.rs:380-406. -/
def pushSubseq : Node L I → TreeBuilder L I → Interval → Option (TreeBuilder L I)
  | .leaf len info l, b, iv =>
    if iv.isEmpty then some b
    else if iv = ⟨0, len⟩ then b.push (.leaf len info l)
    else b.pushLeafSlice l iv
  | .internal h len info cs, b, iv =>
    if iv.isEmpty then some b
    else if iv = ⟨0, len⟩ then b.push (.internal h len info cs)
    else pushSubseqList cs b iv 0

/-- The loop over the children in `Node::push_subseq`, tree.rs:394-403. -/
def pushSubseqList : List (Node L I) → TreeBuilder L I → Interval → Nat → Option (TreeBuilder L I)
  | [], b, _, _ => some b
  | child :: rest, b, iv, offset =>
    if iv.isBefore offset then some b
    else do
      let recIv ← (iv.intersect (child.interval.translate offset)).translateNeg offset
      let b ← pushSubseq child b recIv
      pushSubseqList rest b iv (offset + child.len)

end

/-- `Node::subseq`, tree.rs:408-413, after `into_interval`. -/
def subseq (n : Node L I) (iv : Interval) : Option (Node L I) := do
  (← n.pushSubseq TreeBuilder.new iv).build

/-- `Node::edit`, tree.rs:415-427, after `into_interval`. -/
def edit (n : Node L I) (iv : Interval) (new : Node L I) : Option (Node L I) := do
  let b ← n.pushSubseq TreeBuilder.new (n.interval.pre iv)
  let b ← b.push new
  let b ← n.pushSubseq b (n.interval.suf iv)
  b.build

/-- `impl Default for Node`, tree.rs:494-498. -/
def default : Node L I := .fromLeaf TreeLeaf.default

end Node

end Xi
