import Verif.Rope.Codepoint

/-!
# Model of `rust/rope/src/find.rs`

Regular expressions (the `regex` crate) are not modelled, nor is the iterator over lines,
which only they use.  Lower case comes from Unicode tables: `char::to_lowercase` and
`str::to_lowercase` are parameters.
-/

namespace Xi

/-- `enum FindResult`, find.rs:33-41. -/
inductive FindResult where
  | found (p : Nat)
  | notFound
  | tryAgain
deriving DecidableEq

/-- `enum CaseMatching`, find.rs:47-54. -/
inductive CaseMatching where
  | exact
  | caseInsensitive

/-- Lower case: of a character, and of a string. -/
structure CaseTable where
  char : Char → List Char
  str : List Char → List Char

/-- What is assumed of the Unicode tables.  The characters whose lower case begins with an
ASCII character are the ASCII ones and two more; a string is put in lower case character by
character, but for a sigma at the end of a word. -/
structure CaseTable.Ok (lower : CaseTable) : Prop where
  char_ne : ∀ c, lower.char c ≠ []
  ascii : ∀ c x, (lower.char c)[0]? = some x → x.toNat < 128 → c = x ∨ (97 ≤ x.toNat ∧ x.toNat ≤ 122 ∧ c.toNat + 32 = x.toNat) ∨
    (x = 'i' ∧ c.toNat = 0x130) ∨ (x = 'k' ∧ c.toNat = 0x212A)
  str : ∀ l, 'Σ' ∉ l → lower.str l = l.flatMap lower.char
  str_ne : ∀ l, l ≠ [] → lower.str l ≠ []

abbrev RopeCursor := Cursor (List UInt8) RopeInfo

namespace Find

/-- `memchr2(b0, b1, s)` (memchr crate): the first occurrence of one of the bytes. -/
def memchr2 (b0 b1 : UInt8) (s : List UInt8) : Option Nat := s.findIdx? (fun x => x == b0 || x == b1)

/-- `memchr3(b0, b1, b2, s)` (memchr crate). -/
def memchr3 (b0 b1 b2 : UInt8) (s : List UInt8) : Option Nat := s.findIdx? (fun x => x == b0 || x == b1 || x == b2)

/-- The end of the matchers when there is no match, find.rs:220-222, 231-233: the cursor goes
to the next character. -/
def skipChar (cursor : RopeCursor) (start : Nat) : Option (RopeCursor × Option Nat) := do
  let cursor ← cursor.set start
  let (cursor, _) ← cursor.next baseMetric
  return (cursor, none)

/-- The loop of `compare_cursor_str`, find.rs:217-233; the first argument bounds the number
of leaves. -/
def compareLoop (start success : Nat) : Nat → RopeCursor → List UInt8 → Option (RopeCursor × Option Nat)
  | 0, _, _ => none
  | fuel + 1, cursor, pat => do
    match ← cursor.getLeaf with
    | some (leaf, posInLeaf) =>
      if leaf.length < posInLeaf then none
      else
        let n := min pat.length (leaf.length - posInLeaf)
        if (leaf.drop posInLeaf).take n ≠ pat.take n then skipChar cursor start
        else
          let pat ← strSlice pat n pat.length
          if pat.isEmpty then
            let cursor ← cursor.set success
            return (cursor, some start)
          else
            let (cursor, _) ← cursor.nextLeaf
            compareLoop start success fuel cursor pat
    | none => skipChar cursor start

/-- `compare_cursor_str`, find.rs:207-234. -/
def compareCursorStr (cursor : RopeCursor) (pat : List UInt8) : Option (RopeCursor × Option Nat) :=
  let start := cursor.position
  if pat.isEmpty then some (cursor, some start)
  else compareLoop start (start + pat.length) (cursor.root.len + 2) cursor pat

/-- How far the comparison with one character of the text got. -/
inductive CaseStep where
  | differs
  | complete
  | more (c : Char) (rest : List Char)

/-- The `for` loop of `compare_cursor_str_casei`, find.rs:249-260. -/
def caseiChars : List Char → Char → List Char → CaseStep
  | [], c, rest => .more c rest
  | lc :: lcs, c, rest =>
    if c ≠ lc then .differs
    else match rest with
      | next :: rest => caseiChars lcs next rest
      | [] => .complete

/-- The loop of `compare_cursor_str_casei`, find.rs:247-267. -/
def caseiLoop (lower : CaseTable) (start : Nat) : Nat → RopeCursor → Char → List Char → Option (RopeCursor × Option Nat)
  | 0, _, _, _ => none
  | fuel + 1, cursor, c, rest => do
    let (cursor, r) ← cursor.nextCodepoint
    match r with
    | some ropeC =>
      match caseiChars (lower.char ropeC) c rest with
      | .differs => skipChar cursor start
      | .complete => return (cursor, some start)
      | .more c rest => caseiLoop lower start fuel cursor c rest
    | none => skipChar cursor start

/-- `compare_cursor_str_casei`, find.rs:239-268. -/
def compareCursorStrCasei (lower : CaseTable) (cursor : RopeCursor) (pat : List Char) : Option (RopeCursor × Option Nat) :=
  match pat with
  | [] => none
  | c :: rest => caseiLoop lower cursor.position (cursor.root.len + 1) cursor c rest

/-- `scan_lowercase`, find.rs:328-335, from the offset `i` on; `to_lowercase` is never empty. -/
def scanLowercase (lower : CaseTable) (probe : Char) : Nat → List Char → Option (Option Nat)
  | _, [] => some none
  | i, c :: cs => do
    let first ← (lower.char c)[0]?
    if first = probe then return some i else scanLowercase lower probe (i + (String.utf8EncodeChar c).length) cs

/-- `s.chars()`, collected, on a well-formed string (Rust standard library); the first
argument bounds the length. -/
def charsFuel : Nat → List UInt8 → List Char
  | 0, _ => []
  | fuel + 1, s =>
    match firstChar s with
    | some c => c :: charsFuel fuel (s.drop (String.utf8EncodeChar c).length)
    | none => []

/-- `s.chars()`. -/
def chars (s : List UInt8) : List Char := charsFuel s.length s

/-- `find_core`, find.rs:172-201. -/
def findCore (scanner : List UInt8 → Option (Option Nat)) (matcher : RopeCursor → Option (RopeCursor × Option Nat)) (cursor : RopeCursor) :
    Option (RopeCursor × FindResult) := do
  let origPos := cursor.position
  if origPos = cursor.root.len then return (cursor, .notFound)
  else
    match ← cursor.getLeaf with
    | some (leaf, posInLeaf) =>
      match ← scanner (← strSlice leaf posInLeaf leaf.length) with
      | some off =>
        let cursor ← cursor.set (origPos + off)
        let (cursor, r) ← matcher cursor
        match r with
        | some actualPos => return (cursor, .found actualPos)
        | none => return (cursor, .tryAgain)
      | none =>
        let (cursor, _) ← cursor.nextLeaf
        return (cursor, .tryAgain)
    | none => return (cursor, .notFound)

/-- `find_progress_iter`, find.rs:151-166. -/
def findProgressIter (scanner : List UInt8 → Option (Option Nat)) (matcher : RopeCursor → Option (RopeCursor × Option Nat)) :
    Nat → RopeCursor → Option (RopeCursor × FindResult)
  | 0, cursor => some (cursor, .tryAgain)
  | steps + 1, cursor => do
    let (cursor, r) ← findCore scanner matcher cursor
    match r with
    | .tryAgain => findProgressIter scanner matcher steps cursor
    | r => return (cursor, r)

/-- The scanner of a search that ignores case, find.rs:125-143, for the first byte `b` of the
pattern in lower case. -/
def caseiScanner (lower : CaseTable) (pat : List Char) (b : UInt8) (s : List UInt8) : Option (Option Nat) :=
  if b = 105 then some (memchr3 105 73 0xC4 s)
  else if b = 107 then some (memchr3 107 75 0xE2 s)
  else if b ≥ 97 ∧ b ≤ 122 then some (memchr2 b (b - 0x20) s)
  else if b < 0x80 then some (memchr b s)
  else do
    let c ← pat[0]?
    scanLowercase lower c 0 (chars s)

/-- `find_progress` without a regular expression, find.rs:91-148. -/
def findProgress (lower : CaseTable) (cm : CaseMatching) (pat : List Char) (numSteps : Nat) (cursor : RopeCursor) : Option (RopeCursor × FindResult) :=
  if pat.isEmpty then some (cursor, .notFound)
  else
    match cm with
    | .exact => do
      let bytes := pat.flatMap String.utf8EncodeChar
      let b ← bytes[0]?
      findProgressIter (fun s => some (memchr b s)) (fun cursor => compareCursorStr cursor bytes) numSteps cursor
    | .caseInsensitive => do
      let patLower := lower.str pat
      let b ← (patLower.flatMap String.utf8EncodeChar)[0]?
      findProgressIter (caseiScanner lower pat b) (fun cursor => compareCursorStrCasei lower cursor patLower) numSteps cursor

/-- `find`, find.rs:66-78; `usize` has 64 bits. -/
def find (lower : CaseTable) (cm : CaseMatching) (pat : List Char) (cursor : RopeCursor) : Option (RopeCursor × Option Nat) := do
  let (cursor, r) ← findProgress lower cm pat (2 ^ 64 - 1) cursor
  match r with
  | .found start => return (cursor, some start)
  | .notFound => return (cursor, none)
  | .tryAgain => none

end Find

end Xi
