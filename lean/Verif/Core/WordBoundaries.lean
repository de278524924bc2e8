import Verif.Rope.Codepoint

/-!
# Model of `rust/core-lib/src/word_boundaries.rs`

Loops have fuel; it is more than the number of characters, so it does not run out.
-/

namespace Xi

/-- `enum WordProperty`, word_boundaries.rs:189-194. -/
inductive WordProperty where
  | lf
  | space
  | punctuation
  | other
  deriving DecidableEq, Repr

/-- `get_word_property`, word_boundaries.rs:196-215. -/
def getWordProperty (codepoint : Char) : WordProperty :=
  if codepoint.toNat ≤ 0x20 then
    if codepoint.toNat = 10 then .lf else .space
  else if codepoint.toNat ≤ 0x3f then
    if (0xfc00fffe00000000 >>> codepoint.toNat) &&& 1 ≠ 0 then .punctuation else .other
  else if codepoint.toNat ≤ 0x7f then
    if (0x7800000178000001 >>> (codepoint.toNat &&& 0x3f)) &&& 1 ≠ 0 then .punctuation else .other
  else .other

/-- `enum WordBoundary`, word_boundaries.rs:135-140. -/
inductive WordBoundary where
  | interior
  | start
  | stop
  | both
  deriving DecidableEq, Repr

namespace WordBoundary

/-- `is_start`, word_boundaries.rs:143-145. -/
def isStart (b : WordBoundary) : Bool := b == .start || b == .both

/-- `is_end`, word_boundaries.rs:147-149. -/
def isEnd (b : WordBoundary) : Bool := b == .stop || b == .both

/-- `is_boundary`, word_boundaries.rs:151-153. -/
def isBoundary (b : WordBoundary) : Bool := b != .interior

end WordBoundary

/-- `classify_boundary`, word_boundaries.rs:156-170. -/
def classifyBoundary : WordProperty → WordProperty → WordBoundary
  | .lf, _ => .both
  | _, .lf => .both
  | .space, .other => .start
  | .space, .punctuation => .start
  | .punctuation, .other => .start
  | .other, .space => .stop
  | .punctuation, .space => .stop
  | .other, .punctuation => .stop
  | _, _ => .interior

/-- `classify_boundary_initial`, word_boundaries.rs:172-186. -/
def classifyBoundaryInitial : WordProperty → WordProperty → WordBoundary
  | .lf, .other => .start
  | .other, .lf => .stop
  | .lf, .space => .interior
  | .lf, .punctuation => .interior
  | .space, .lf => .interior
  | .punctuation, .lf => .interior
  | .space, .punctuation => .interior
  | .punctuation, .space => .interior
  | prev, next => classifyBoundary prev next

/-- `WordCursor`, word_boundaries.rs:20-22, is a cursor on a rope. -/
abbrev WordCursor := Cursor (List UInt8) RopeInfo

namespace WordCursor

/-- The loop of `prev_boundary`, word_boundaries.rs:35-42. -/
def prevLoop : Nat → WordCursor → WordProperty → Nat → Option (WordCursor × Nat)
  | 0, _, _, _ => none
  | fuel + 1, c, prop, candidate => do
    let (c, ch) ← Cursor.prevCodepoint c
    match ch with
    | none => some (c, candidate)
    | some prev =>
      if (classifyBoundary (getWordProperty prev) prop).isStart then some (c, candidate)
      else prevLoop fuel c (getWordProperty prev) c.position

/-- `prev_boundary`, word_boundaries.rs:31-47. -/
def prevBoundary (c : WordCursor) : Option (WordCursor × Option Nat) := do
  let (c, ch) ← Cursor.prevCodepoint c
  match ch with
  | some ch =>
    let (c, candidate) ← prevLoop (c.root.len + 1) c (getWordProperty ch) c.position
    let c ← c.set candidate
    return (c, some candidate)
  | none => return (c, none)

/-- The loop of `next_boundary`, word_boundaries.rs:54-61. -/
def nextLoop : Nat → WordCursor → WordProperty → Nat → Option (WordCursor × Nat)
  | 0, _, _, _ => none
  | fuel + 1, c, prop, candidate => do
    let (c, ch) ← Cursor.nextCodepoint c
    match ch with
    | none => some (c, candidate)
    | some next =>
      if (classifyBoundary prop (getWordProperty next)).isEnd then some (c, candidate)
      else nextLoop fuel c (getWordProperty next) c.position

/-- `next_boundary`, word_boundaries.rs:50-66. -/
def nextBoundary (c : WordCursor) : Option (WordCursor × Option Nat) := do
  let (c, ch) ← Cursor.nextCodepoint c
  match ch with
  | some ch =>
    let (c, candidate) ← nextLoop (c.root.len + 1) c (getWordProperty ch) c.position
    let c ← c.set candidate
    return (c, some candidate)
  | none => return (c, none)

/-- Whether the loop to the start ends here, word_boundaries.rs:89-99. -/
def startStops (ib : WordBoundary) (atInitial : Bool) (pb pa : WordProperty) : Bool :=
  if atInitial then ib.isStart
  else if !ib.isBoundary then (classifyBoundary pb pa).isBoundary
  else (classifyBoundary pb pa).isStart

/-- Whether the loop to the end ends here, word_boundaries.rs:114-124. -/
def endStops (ib : WordBoundary) (atInitial : Bool) (pb pa : WordProperty) : Bool :=
  if atInitial then ib.isEnd
  else if !ib.isBoundary then (classifyBoundary pb pa).isBoundary
  else (classifyBoundary pb pa).isEnd

/-- The loop to the start, word_boundaries.rs:88-103. -/
def startLoop (ib : WordBoundary) (initial : Nat) : Nat → WordCursor → Nat → Option WordProperty → Option WordProperty →
    Option (WordCursor × Nat)
  | 0, _, _, _, _ => none
  | fuel + 1, c, start, some pb, some pa =>
    if startStops ib (start == initial) pb pa then some (c, start)
    else do
      let start := c.position
      let (c, ch) ← Cursor.prevCodepoint c
      startLoop ib initial fuel c start (ch.map getWordProperty) (some pb)
  | _ + 1, c, start, _, _ => some (c, start)

/-- The loop to the end, word_boundaries.rs:113-128. -/
def endLoop (ib : WordBoundary) (initial : Nat) : Nat → WordCursor → Nat → Option WordProperty → Option WordProperty →
    Option (WordCursor × Nat)
  | 0, _, _, _, _ => none
  | fuel + 1, c, stop, some pb, some pa =>
    if endStops ib (stop == initial) pb pa then some (c, stop)
    else do
      let stop := c.position
      let (c, ch) ← Cursor.nextCodepoint c
      endLoop ib initial fuel c stop (some pa) (ch.map getWordProperty)
  | _ + 1, c, stop, _, _ => some (c, stop)

/-- Finding the start, word_boundaries.rs:81-103; the cursor has just read the character
before. -/
def selectStart (ib : WordBoundary) (c : WordCursor) (initial : Nat) (pb pa : Option WordProperty) : Option (WordCursor × Nat) :=
  if pa.isNone then do
    let start := c.position
    let (c, ch) ← Cursor.prevCodepoint c
    startLoop ib initial (c.root.len + 2) c start (ch.map getWordProperty) pb
  else startLoop ib initial (c.root.len + 2) c initial pb pa

/-- Finding the end, word_boundaries.rs:105-128; the cursor is at the initial position. -/
def selectEnd (ib : WordBoundary) (c : WordCursor) (initial : Nat) (pb pa : Option WordProperty) : Option (WordCursor × Nat) :=
  if pb.isNone then do
    let (c, ch) ← Cursor.nextCodepoint c
    let stop := c.position
    let (c, ch') ← Cursor.nextCodepoint c
    endLoop ib initial (c.root.len + 2) c stop (ch.map getWordProperty) (ch'.map getWordProperty)
  else endLoop ib initial (c.root.len + 2) c initial pb pa

/-- The boundary at the initial position, word_boundaries.rs:76-80. -/
def initialBoundary : Option WordProperty → Option WordProperty → WordBoundary
  | some pb, some pa => classifyBoundaryInitial pb pa
  | _, _ => .both

/-- `select_word`, word_boundaries.rs:70-131. -/
def selectWord (c : WordCursor) : Option (WordCursor × Nat × Nat) := do
  let initial := c.position
  let (c, after) ← Cursor.nextCodepoint c
  let c ← c.set initial
  let (c, before) ← Cursor.prevCodepoint c
  let pa := after.map getWordProperty
  let pb := before.map getWordProperty
  let (c, start) ← selectStart (initialBoundary pb pa) c initial pb pa
  let c ← c.set initial
  let (c, stop) ← selectEnd (initialBoundary pb pa) c initial pb pa
  let c ← c.set stop
  return (c, start, stop)

end WordCursor

end Xi
