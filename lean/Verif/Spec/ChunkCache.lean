import Verif.Plugin.ChunkCache
import Verif.Spec.Utf8
import Verif.Spec.Rope
import Verif.Rope.RopeLemmas
import Verif.Spec.Delta

/-!
# What a plugin's cache should hold
-/

namespace Xi

namespace Plugin

/-- The places right after the newlines of a text. -/
def afterNewlines : List UInt8 → List Nat
  | [] => []
  | x :: s => (if x = newline then [1] else []) ++ (afterNewlines s).map (· + 1)

/-- The number of bytes after the last newline. -/
def sinceNewline (s : List UInt8) : Nat := (s.reverse.takeWhile (fun x => x != newline)).length

/-- The start of line `n`; the end of the text if there is no such line. -/
def lineBegin (t : List UInt8) (n : Nat) : Nat := ((0 :: afterNewlines t)[n]?).getD t.length

/-- The text from `a` to `b`. -/
def part (t : List UInt8) (a b : Nat) : List UInt8 := (t.take b).drop a

/-- The cache holds a part of the document `t`, with the right line numbers and offsets. -/
structure Coherent (c : ChunkCache) (t : List UInt8) : Prop where
  le : c.offset + c.contents.length ≤ t.length
  chunk : c.contents = part t c.offset (c.offset + c.contents.length)
  start : CharBoundary t c.offset
  stop : CharBoundary t (c.offset + c.contents.length)
  firstLine : c.firstLine = (t.take c.offset).count newline
  firstLineOffset : c.firstLineOffset = sinceNewline (t.take c.offset)
  lineOffsets : c.lineOffsets = afterNewlines c.contents
  bufSize : c.bufSize = t.length
  numLines : c.numLines = t.count newline + 1

/-- The edit copies whole characters and inserts well-formed text. -/
def WholeChars (t : List UInt8) (d : Delta UInt8) : Prop :=
  ∀ el ∈ d.els, match el with
    | .copy b e => CharBoundary t b ∧ CharBoundary t e
    | .insert s => Utf8 s

/-- The peer answers requests at revision `rev` from the text `r`, or not at all. -/
def Serves (source : Source) (size rev : Nat) (r : Rope) : Prop :=
  ∀ start unit, source start unit size rev = pluginGetData r start unit size ∨ source start unit size rev = some none

/-- The peer answers every request at revision `rev`. -/
def Answers (source : Source) (size rev : Nat) (r : Rope) : Prop :=
  ∀ start unit, source start unit size rev = pluginGetData r start unit size

/-- A peer that holds the text `r` at revision `rev`, and room for a character in a chunk. -/
structure Reading (source : Source) (size : Nat) (r : Rope) (rev : Nat) : Prop where
  bal : r.Balanced
  big : 4 ≤ size
  serves : Serves source size rev r

/-- The cache is still right, and about the same revision. -/
structure Same (c c' : ChunkCache) (t : List UInt8) : Prop where
  coh : Coherent c' t
  rev : c'.rev = c.rev

/-- The result of a read: the value, or an error because the peer did not answer; the cache stays right. -/
def ReadOk {α : Type} (source : Source) (size : Nat) (r : Rope) (c : ChunkCache) (res : Option (ChunkCache × Option α)) (v : Option α) : Prop :=
  ∃ c' x, res = some (c', x) ∧ Same c c' r.text ∧ (x = v ∨ x = none ∧ ¬ Answers source size c.rev r)

end Plugin

end Xi
