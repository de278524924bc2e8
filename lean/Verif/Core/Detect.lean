import Verif.Rope.Lines

/-!
# Model of `rust/core-lib/src/line_ending.rs` and `rust/core-lib/src/whitespace.rs`

An error is `Except.error ()`, a panic of the rope's iterators is `none`.
-/

namespace Xi

/-- `enum LineEnding`, line_ending.rs:24-27. -/
inductive LineEnding where
  | crLf
  | lf
  deriving DecidableEq, Repr

namespace LineEnding

/-- `parse_chunk`, line_ending.rs:57-68; `memchr2` finds the first of the two bytes. -/
def parseChunk (bytes : List UInt8) : Except Unit (Option LineEnding) :=
  match bytes.findIdx? (fun b => b == 10 || b == 13) with
  | some x =>
    if bytes[x]? = some 13 ∧ bytes.length > x + 1 ∧ bytes[x + 1]? = some 10 then .ok (some .crLf)
    else if bytes[x]? = some 10 then .ok (some .lf)
    else .error ()
  | none => .ok none

/-- The loop of `parse`, line_ending.rs:39-46, with the flags. -/
def parseLoop (crlf lf : Bool) : List (List UInt8) → Except Unit (Bool × Bool)
  | [] => .ok (crlf, lf)
  | c :: cs =>
    match parseChunk c with
    | .ok (some .crLf) => parseLoop true lf cs
    | .ok (some .lf) => parseLoop crlf true cs
    | .ok none => parseLoop crlf lf cs
    | .error e => .error e

/-- The result of `parse`, line_ending.rs:35-54, from the chunks. -/
def parseChunks (cs : List (List UInt8)) : Except Unit (Option LineEnding) :=
  match parseLoop false false cs with
  | .error e => .error e
  | .ok (true, false) => .ok (some .crLf)
  | .ok (false, true) => .ok (some .lf)
  | .ok (false, false) => .ok none
  | .ok (true, true) => .error ()

/-- `parse`, line_ending.rs:35-54. -/
def parse (r : Rope) : Option (Except Unit (Option LineEnding)) := (r.chunks .full).map parseChunks

end LineEnding

/-- `enum Indentation`, whitespace.rs:24-27. -/
inductive Indentation where
  | tabs
  | spaces (n : Nat)
  deriving DecidableEq, Repr

namespace Indentation

/-- `parse_line`, whitespace.rs:69-86; `n` is the number of spaces seen. -/
def parseLineFrom (n : Nat) : List UInt8 → Except Unit (Option Indentation)
  | 32 :: l => parseLineFrom (n + 1) l
  | 9 :: _ => if n > 0 then .error () else .ok (some .tabs)
  | _ => .ok (if n > 0 then some (.spaces n) else none)

/-- `*spaces.entry(size).or_insert(0) += 1`, whitespace.rs:43-44; a `BTreeMap` is a list
ordered by its keys. -/
def count (size : Nat) : List (Nat × Nat) → List (Nat × Nat)
  | [] => [(size, 1)]
  | (k, c) :: m => if size < k then (size, 1) :: (k, c) :: m else if size = k then (k, c + 1) :: m else (k, c) :: count size m

/-- The loop of `parse`, whitespace.rs:40-50. -/
def parseLoop (tabs : Bool) (spaces : List (Nat × Nat)) : List (List UInt8) → Except Unit (Bool × List (Nat × Nat))
  | [] => .ok (tabs, spaces)
  | l :: ls =>
    match parseLineFrom 0 l with
    | .ok (some (.spaces size)) => parseLoop tabs (count size spaces) ls
    | .ok (some .tabs) => parseLoop true spaces ls
    | .ok none => parseLoop tabs spaces ls
    | .error e => .error e

/-- The loop of `gcd`, whitespace.rs:122-126; `fuel` is more than `b`, which goes down. -/
def gcdLoop : Nat → Nat → Nat → Nat
  | 0, a, _ => a
  | fuel + 1, a, b => if b > 0 then gcdLoop fuel b (a % b) else a

/-- `gcd`, whitespace.rs:112-128. -/
def gcd (a b : Nat) : Nat :=
  if a = 0 then b else if b = 0 ∨ a = b then a else gcdLoop (b + 1) a b

/-- `extract_count`, whitespace.rs:93-109. -/
def extractCount (spaces : List (Nat × Nat)) : Nat :=
  let takeSize := if spaces.length < 4 then spaces.length else 4
  (spaces.take takeSize).foldl (fun a p => if gcd a p.1 = 1 then a else gcd a p.1) 0

/-- The result of `parse`, whitespace.rs:35-65, from the lines. -/
def parseLines (ls : List (List UInt8)) : Except Unit (Option Indentation) :=
  match parseLoop false [] ls with
  | .error e => .error e
  | .ok (t, m) =>
    match t, !m.isEmpty with
    | true, true => .error ()
    | true, false => .ok (some .tabs)
    | false, true => if extractCount m > 0 then .ok (some (.spaces (extractCount m))) else .ok none
    | false, false => .ok none

/-- `parse`, whitespace.rs:35-65. -/
def parse (r : Rope) : Option (Except Unit (Option Indentation)) := (r.linesRaw .full).map parseLines

end Indentation

end Xi
