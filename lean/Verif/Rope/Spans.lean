import Verif.Rope.Tree
import Verif.Rope.Delta
import Verif.Rope.Cursor
import Verif.Spec.Tree

/-!
# Model of `rust/rope/src/spans.rs`
-/

namespace Xi

namespace Spans

/-- `MIN_LEAF`, spans.rs:27. -/
abbrev minLeaf : Nat := 32

/-- `MAX_LEAF`, spans.rs:28. -/
abbrev maxLeaf : Nat := 64

end Spans

/-- `struct Span`, spans.rs:32-36. -/
structure Span (T : Type) where
  iv : Interval
  data : T
deriving DecidableEq, Repr

/-- `struct SpansLeaf`, spans.rs:38-42. -/
structure SpansLeaf (T : Type) where
  len : Nat
  spans : List (Span T)
deriving DecidableEq, Repr

/-- `struct SpansInfo`, spans.rs:53-58. -/
structure SpansInfo where
  nSpans : Nat
  iv : Interval
deriving DecidableEq, Repr

namespace SpansLeaf

variable {T O : Type}

/-- One round of the loop of `push_maybe_split`, spans.rs:72-76: the span of
`other`, cut to `iv` and moved to its place behind `selfLen`; no span if nothing
is left of it. -/
def clipStep (selfLen : Nat) (iv : Interval) (span : Span T) : Option (Option (Span T)) := do
  let siv ← (span.iv.intersect iv).translateNeg iv.start
  let siv := siv.translate selfLen
  return if siv.isEmpty then none else some ⟨siv, span.data⟩

/-- The loop of `push_maybe_split`, spans.rs:71-77: the spans pushed. -/
def clipAll (selfLen : Nat) (iv : Interval) : List (Span T) → Option (List (Span T))
  | [] => some []
  | s :: rest => do
    let o ← clipStep selfLen iv s
    let rest ← clipAll selfLen iv rest
    return o.toList ++ rest

/-- `span.iv = span.iv.translate_neg(..)` for all spans, spans.rs:86-88. -/
def shiftBack (amount : Nat) : List (Span T) → Option (List (Span T))
  | [] => some []
  | s :: rest => do
    let iv ← s.iv.translateNeg amount
    let rest ← shiftBack amount rest
    return ⟨iv, s.data⟩ :: rest

/-- The second half of `push_maybe_split`, spans.rs:80-92. -/
def splitOff (l : SpansLeaf T) : Option (SpansLeaf T × Option (SpansLeaf T)) :=
  if l.spans.length ≤ Spans.maxLeaf then some (l, none)
  else do
    let splitpoint := l.spans.length / 2
    let units := (← l.spans[splitpoint]?).iv.start
    let new ← shiftBack units (l.spans.drop splitpoint)
    if l.len < units then none
    else return (⟨units, l.spans.take splitpoint⟩, some ⟨l.len - units, new⟩)

/-- `push_maybe_split`, spans.rs:69-93. -/
def push (self other : SpansLeaf T) (iv : Interval) : Option (SpansLeaf T × Option (SpansLeaf T)) := do
  let new ← clipAll self.len iv other.spans
  let size ← iv.size
  splitOff ⟨self.len + size, self.spans ++ new⟩

end SpansLeaf

/-- `impl Leaf for SpansLeaf`, `impl NodeInfo for SpansInfo`, spans.rs:60-111. -/
instance (T : Type) : TreeLeaf (SpansLeaf T) SpansInfo where
  len l := l.len
  isOkChild l := l.spans.length ≥ Spans.minLeaf
  push := SpansLeaf.push
  default := ⟨0, []⟩
  computeInfo l := ⟨l.spans.length, l.spans.foldl (fun iv s => iv.union s.iv) ⟨0, 0⟩⟩
  accumulate a b := ⟨a.nSpans + b.nSpans, a.iv.union b.iv⟩

/-- `type Spans<T> = Node<SpansInfo<T>>`, spans.rs:30. -/
abbrev SpansTree (T : Type) := Node (SpansLeaf T) SpansInfo

variable {T O : Type}

/-- `struct SpansBuilder`, spans.rs:113-118. -/
structure SpansBuilder (T : Type) where
  b : TreeBuilder (SpansLeaf T) SpansInfo
  leaf : SpansLeaf T
  len : Nat
  totalLen : Nat

namespace SpansBuilder

/-- `SpansBuilder::new`, spans.rs:121-123. -/
def new (totalLen : Nat) : SpansBuilder T := ⟨TreeBuilder.new, ⟨0, []⟩, 0, totalLen⟩

/-- The first half of `add_span`, spans.rs:129-134: a full leaf is closed at the
start of the new span. -/
def makeRoom (sb : SpansBuilder T) (start : Nat) : Option (SpansBuilder T) :=
  if sb.leaf.spans.length = Spans.maxLeaf then
    if start < sb.len then none
    else do
      let b ← sb.b.push (Node.fromLeaf ⟨start - sb.len, sb.leaf.spans⟩)
      return ⟨b, ⟨0, []⟩, start, sb.totalLen⟩
  else some sb

/-- `add_span`, spans.rs:127-136, for an `Interval`. -/
def addSpan (sb : SpansBuilder T) (iv : Interval) (data : T) : Option (SpansBuilder T) := do
  let sb ← sb.makeRoom iv.start
  let iv ← iv.translateNeg sb.len
  return { sb with leaf := { sb.leaf with spans := sb.leaf.spans ++ [⟨iv, data⟩] } }

/-- `build`, spans.rs:140-144. -/
def build (sb : SpansBuilder T) : Option (SpansTree T) :=
  if sb.totalLen < sb.len then none
  else do
    let b ← sb.b.push (Node.fromLeaf ⟨sb.totalLen - sb.len, sb.leaf.spans⟩)
    b.build

end SpansBuilder

/-- `struct SpanIter`, spans.rs:147-150. -/
structure SpanIter (T : Type) where
  cursor : Cursor (SpansLeaf T) SpansInfo
  ix : Nat

namespace SpanIter

/-- `next`, spans.rs:340-355. -/
def next (it : SpanIter T) : Option (SpanIter T × Option (Span T)) := do
  match ← it.cursor.getLeaf with
  | none => some (it, none)
  | some (leaf, startPos) =>
    if leaf.spans.isEmpty then some (it, none)
    else if it.cursor.position < startPos then none
    else do
      let leafStart := it.cursor.position - startPos
      let span ← leaf.spans[it.ix]?
      let it' ← if it.ix + 1 = leaf.spans.length then do
          let (c, _) ← it.cursor.nextLeaf
          some (⟨c, 0⟩ : SpanIter T)
        else some ⟨it.cursor, it.ix + 1⟩
      return (it', some ⟨span.iv.translate leafStart, span.data⟩)

/-- The iterator run to its end. -/
def collect : Nat → SpanIter T → Option (List (Span T))
  | 0, _ => none
  | fuel + 1, it => do
    let (it, o) ← it.next
    match o with
    | none => return []
    | some s => return s :: (← collect fuel it)

end SpanIter

namespace SpansTree

/-- `Spans::iter`, spans.rs:291-293, run to its end.  The bound on the number of
calls of `next` is the number of spans in the leaves, plus one. -/
def iter (n : SpansTree T) : Option (List (Span T)) := do
  let c ← Cursor.new n 0
  SpanIter.collect ((n.leaves.map (fun l => l.spans.length)).sum + 1) ⟨c, 0⟩

/-- One round of the loop of `Spans::transform`, spans.rs:169-178. -/
def transformStep {α : Type} (d : Delta α) (baseStart newStart : Nat) (sb : SpansBuilder T) (s : Span T) : Option (SpansBuilder T) :=
  let start := d.transformIx (s.iv.start + baseStart) false
  let stop := d.transformIx (s.iv.stop + baseStart) false
  if start < newStart ∨ stop < newStart then none
  else if start - newStart < stop - newStart then sb.addSpan ⟨start - newStart, stop - newStart⟩ s.data
  else some sb

/-- `Spans::transform`, spans.rs:159-179. -/
def transform {α : Type} (n : SpansTree T) (baseStart baseEnd : Nat) (d : Delta α) : Option (SpansTree T) :=
  let newStart := d.transformIx baseStart false
  let newEnd := d.transformIx baseEnd true
  if newEnd < newStart then none
  else do
    let spans ← n.iter
    let sb ← spans.foldlM (transformStep d baseStart newStart) (SpansBuilder.new (newEnd - newStart))
    sb.build

/-- `if red_iv.is_empty() { iter.next() } else { Some((red_iv, red_val)) }`,
spans.rs:274-284: what is left of one side. -/
def putBack (iv : Interval) (v : T) (rest : List (Span T)) : List (Span T) :=
  if iv.isEmpty then rest else ⟨iv, v⟩ :: rest

/-- Adding all spans that remain on one side, spans.rs:217-224. -/
def addRest (f : T → Option T → O) (sb : SpansBuilder O) : List (Span T) → Option (SpansBuilder O)
  | [] => some sb
  | s :: rest => do addRest f (← sb.addSpan s.iv (f s.data none)) rest

/-- The part of a leading span that stands alone, spans.rs:247-258: the builder,
and what is left of both intervals. -/
def mergeLead (f : T → Option T → O) (sb : SpansBuilder O) (r b : Span T) :
    Option (SpansBuilder O × Interval × Interval) :=
  if r.iv.start < b.iv.start then do
    let iv := r.iv.pre b.iv
    return (← sb.addSpan iv (f r.data none), r.iv.suf iv, b.iv)
  else if b.iv.start < r.iv.start then do
    let iv := b.iv.pre r.iv
    return (← sb.addSpan iv (f b.data none), r.iv, b.iv.suf iv)
  else some (sb, r.iv, b.iv)

/-- The loop of `Spans::merge`, spans.rs:209-285.  The two lists are what the
iterators have yet to give, with `next_red` and `next_blue` at their heads. -/
def mergeLoop (f : T → Option T → O) : Nat → List (Span T) → List (Span T) → SpansBuilder O → Option (SpansBuilder O)
  | 0, _, _, _ => none
  | _ + 1, [], [], sb => some sb
  | _ + 1, red, [], sb => addRest f sb red
  | _ + 1, [], blue, sb => addRest f sb blue
  | fuel + 1, r :: red, b :: blue, sb =>
    if (r.iv.intersect b.iv).isEmpty then
      if r.iv.isBefore b.iv.start then do mergeLoop f fuel red (b :: blue) (← sb.addSpan r.iv (f r.data none))
      else do mergeLoop f fuel (r :: red) blue (← sb.addSpan b.iv (f b.data none))
    else do
      let (sb, riv, biv) ← mergeLead f sb r b
      if riv.start ≠ biv.start then none
      else
        let iv := riv.intersect biv
        if iv.isEmpty then none
        else do
          let sb ← sb.addSpan iv (f r.data (some b.data))
          let riv := riv.suf iv
          let biv := biv.suf iv
          if ¬ (riv.isEmpty ∨ biv.isEmpty) then none
          else mergeLoop f fuel (putBack riv r.data red) (putBack biv b.data blue) sb

/-- `Spans::merge`, spans.rs:193-287. -/
def merge (n other : SpansTree T) (f : T → Option T → O) : Option (SpansTree O) :=
  if n.len ≠ other.len then none
  else do
    let red ← n.iter
    let blue ← other.iter
    let sb ← mergeLoop f (red.length + blue.length + 1) red blue (SpansBuilder.new n.len)
    sb.build

/-- One round of the loop of `Spans::apply_shape`, spans.rs:302-307. -/
def shapeStep {α : Type} (n : SpansTree T) (b : TreeBuilder (SpansLeaf T) SpansInfo) :
    DeltaElement α → Option (TreeBuilder (SpansLeaf T) SpansInfo)
  | .copy beg e => do b.push (← n.subseq (← Interval.new beg e))
  | .insert s => do b.push (← (SpansBuilder.new s.length).build)

/-- `Spans::apply_shape`, spans.rs:300-309.  Of the delta only the shape is
used. -/
def applyShape {α : Type} (n : SpansTree T) (d : Delta α) : Option (SpansTree T) := do
  (← d.els.foldlM (shapeStep n) TreeBuilder.new).build

/-- The loop of `Spans::delete_after`, spans.rs:315-324. -/
def deleteLoop (iv : Interval) : List (Span T) → SpansBuilder T → Option (SpansBuilder T)
  | [], sb => some sb
  | s :: rest, sb =>
    if (s.iv.intersect iv).isEmpty then do deleteLoop iv rest (← sb.addSpan s.iv s.data)
    else some sb

/-- `Spans::delete_after`, spans.rs:312-326. -/
def deleteAfter (n : SpansTree T) (iv : Interval) : Option (SpansTree T) := do
  let sb ← deleteLoop iv (← n.iter) (SpansBuilder.new n.len)
  sb.build

end SpansTree

end Xi
