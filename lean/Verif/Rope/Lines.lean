import Verif.Rope.Rope
import Verif.Rope.Cursor

/-!
# Model of `rust/rope/src/rope.rs`: chunk and line iterators, conversion to strings

Iterators are run to their end with `collect…`, whose first argument bounds the
number of items.  `Cow<str>` is a string.
-/

namespace Xi

/-- `struct ChunkIter`, rope.rs:558-561. -/
structure ChunkIter where
  cursor : Cursor (List UInt8) RopeInfo
  stop : Nat

/-- `ChunkIter::next`, rope.rs:566-574. -/
def ChunkIter.next (it : ChunkIter) : Option (ChunkIter × Option (List UInt8)) :=
  if it.cursor.position ≥ it.stop then some (it, none)
  else do
    let (leaf, startPos) ← ← it.cursor.getLeaf
    if leaf.length < startPos then none
    else
      let len := min (it.stop - it.cursor.position) (leaf.length - startPos)
      let (cursor, _) ← it.cursor.nextLeaf
      return ({ it with cursor := cursor }, some (← strSlice leaf startPos (startPos + len)))

/-- What `for chunk in iter` goes through. -/
def ChunkIter.collect : Nat → ChunkIter → Option (List (List UInt8))
  | 0, _ => none
  | fuel + 1, it => do
    let (it, chunk) ← it.next
    match chunk with
    | none => return []
    | some chunk => return chunk :: (← collect fuel it)

/-- `struct LinesRaw`, rope.rs:734-737. -/
structure LinesRaw where
  inner : ChunkIter
  fragment : List UInt8

/-- The outcome of the first half of the loop body in `LinesRaw::next`: no chunk
left, an empty chunk, or a fragment to look at. -/
inductive LinesRaw.Fetched where
  | ended
  | empty
  | ready

/-- The first half of the loop body, rope.rs:753-762. -/
def LinesRaw.fetch (it : LinesRaw) : Option (LinesRaw × Fetched) :=
  if it.fragment.isEmpty then do
    let (inner, chunk) ← it.inner.next
    match chunk with
    | none => return (⟨inner, it.fragment⟩, .ended)
    | some chunk => return (⟨inner, chunk⟩, if chunk.isEmpty then .empty else .ready)
  else some (it, .ready)

/-- The `loop` of `LinesRaw::next`, rope.rs:752-774; `cow_append` (rope.rs:739-745)
is concatenation. -/
def LinesRaw.nextLoop : Nat → LinesRaw → List UInt8 → Option (LinesRaw × Option (List UInt8))
  | 0, _, _ => none
  | fuel + 1, it, result => do
    match ← it.fetch with
    | (it, .ended) => return (it, if result.isEmpty then none else some result)
    | (it, .empty) => return (it, none)
    | (it, .ready) =>
      match memchr newline it.fragment with
      | some i =>
        let line ← strSlice it.fragment 0 (i + 1)
        return (⟨it.inner, ← strSlice it.fragment (i + 1) it.fragment.length⟩, some (result ++ line))
      | none => nextLoop fuel ⟨it.inner, []⟩ (result ++ it.fragment)

/-- `LinesRaw::next`, rope.rs:750-775.  Every round but the first takes a new
chunk, and chunks are not empty. -/
def LinesRaw.next (it : LinesRaw) : Option (LinesRaw × Option (List UInt8)) :=
  it.nextLoop (it.inner.stop + 2) []

/-- What iterating over raw lines goes through. -/
def LinesRaw.collect : Nat → LinesRaw → Option (List (List UInt8))
  | 0, _ => none
  | fuel + 1, it => do
    let (it, line) ← it.next
    match line with
    | none => return []
    | some line => return line :: (← collect fuel it)

/-- The body of `Lines::next`, rope.rs:785-807 (the two arms of the `match` do the
same): the line without its ending. -/
def stripEnding (s : List UInt8) : List UInt8 :=
  if s.getLast? = some newline then
    let s := s.take (s.length - 1)
    if s.getLast? = some 13 then s.take (s.length - 1) else s
  else s

namespace Rope

/-- `Rope::iter_chunks`, rope.rs:501-505. -/
def iterChunks (r : Rope) (range : Bounds) : Option ChunkIter := do
  let iv ← range.intoInterval r.len
  return ⟨← Cursor.new r iv.start, iv.stop⟩

/-- `iter_chunks(range).collect()`. -/
def chunks (r : Rope) (range : Bounds) : Option (List (List UInt8)) := do
  let it ← r.iterChunks range
  it.collect (it.stop + 1)

/-- `lines_raw(range).collect()`, rope.rs:512-514. -/
def linesRaw (r : Rope) (range : Bounds) : Option (List (List UInt8)) := do
  let it ← r.iterChunks range
  LinesRaw.collect (it.stop + 1) ⟨it, []⟩

/-- `lines(range).collect()`, rope.rs:526-528. -/
def lines (r : Rope) (range : Bounds) : Option (List (List UInt8)) := do
  return (← r.linesRaw range).map stripEnding

/-- `Rope::byte_at`, rope.rs:531-535. -/
def byteAt (r : Rope) (offset : Nat) : Option UInt8 := do
  let c ← Cursor.new r offset
  let (leaf, pos) ← ← c.getLeaf
  leaf[pos]?

/-- `Rope::slice_to_cow`, rope.rs:537-554. -/
def sliceToCow (r : Rope) (range : Bounds) : Option (List UInt8) := do
  let it ← r.iterChunks range
  let (it, first) ← it.next
  let (it, second) ← it.next
  match first, second with
  | none, none => return []
  | some s, none => return s
  | some one, some two => return (← it.collect (it.stop + 1)).foldl (· ++ ·) (one ++ two)
  | none, some _ => none

/-- `String::from(&Rope)`, rope.rs:611-615. -/
def toStr (r : Rope) : Option (List UInt8) := r.sliceToCow .full

end Rope

end Xi
