import Verif.Unicode.LineBreakTables
import Verif.Rope.Rope

/-!
# Model of `rust/unicode/src/lib.rs`: line breaking

Bytes and states (`u8`) are natural numbers.  `none` means that an index is out of bounds or
that a subtraction underflows.  The loops have fuel, which is more than the number of bytes.
-/

namespace Xi

namespace Unicode

/-- `linebreak_property`, unicode/src/lib.rs:30-42. -/
def lbProperty (c : Char) : Option Nat :=
  let cp := c.toNat
  if cp < 0x800 then tableGet 64 lb12 cp
  else if cp < 0x10000 then do
    let child ← tableGet 64 lb3Root (cp >>> 6)
    tableGet 64 lb3Child (child * 0x40 + (cp &&& 0x3f))
  else do
    let mid ← tableGet 16 lb4Root (cp >>> 12)
    let leaf ← tableGet 64 lb4Mid (mid * 0x40 + ((cp >>> 6) &&& 0x3f))
    tableGet 64 lb4Leaves (leaf * 0x40 + (cp &&& 0x3f))

/-- `a - b` on `usize`. -/
def subUsize (a b : Nat) : Option Nat := if b ≤ a then some (a - b) else none

/-- `s.as_bytes()[ix]`. -/
def byteIx (s : List UInt8) (ix : Nat) : Option Nat := s[ix]?.map UInt8.toNat

/-- `linebreak_property_str`, unicode/src/lib.rs:49-70. -/
def lbPropertyStr (s : List UInt8) (ix : Nat) : Option (Nat × Nat) := do
  let b ← byteIx s ix
  if b < 0x80 then return (← tableGet 64 lb12 b, 1)
  else if b < 0xe0 then
    let cp ← subUsize ((b <<< 6) + (← byteIx s (ix + 1))) 0x3080
    return (← tableGet 64 lb12 cp, 2)
  else if b < 0xf0 then
    let midIx ← subUsize ((b <<< 6) + (← byteIx s (ix + 1))) 0x3880
    let mid ← tableGet 64 lb3Root midIx
    return (← tableGet 64 lb3Child (← subUsize (mid * 0x40 + (← byteIx s (ix + 2))) 0x80), 3)
  else
    let midIx ← subUsize ((b <<< 6) + (← byteIx s (ix + 1))) 0x3c80
    let mid ← tableGet 16 lb4Root midIx
    let leafIx ← subUsize ((mid <<< 6) + (← byteIx s (ix + 2))) 0x80
    let leaf ← tableGet 64 lb4Mid leafIx
    return (← tableGet 64 lb4Leaves (← subUsize (leaf * 0x40 + (← byteIx s (ix + 3))) 0x80), 4)

/-- `LINEBREAK_STATE_MACHINE[state * N_LINEBREAK_CATEGORIES + lb]`. -/
def machine (state lb : Nat) : Option Nat := tableGet 43 lbStateMachine (state * nCategories + lb)

/-- `LineBreakIterator`, unicode/src/lib.rs:80-85. -/
structure LineBreakIterator where
  s : List UInt8
  ix : Nat
  state : Nat

namespace LineBreakIterator

/-- `LineBreakIterator::new`, unicode/src/lib.rs:125-137. -/
def new (s : List UInt8) : Option LineBreakIterator :=
  if s.isEmpty then some ⟨s, 1, 0⟩
  else do
    let (lb, len) ← lbPropertyStr s 0
    return ⟨s, len, lb⟩

/-- `LineBreakIterator::next`, unicode/src/lib.rs:91-121. -/
def next : Nat → LineBreakIterator → Option (LineBreakIterator × Option (Nat × Bool))
  | 0, _ => none
  | fuel + 1, it =>
    if it.ix > it.s.length then some (it, none)
    else if it.ix = it.s.length then do
      let new ← machine it.state 0
      return (⟨it.s, it.ix + 1, it.state⟩, some (it.s.length, decide (0xc0 ≤ new)))
    else do
      let (lb, len) ← lbPropertyStr it.s it.ix
      let new ← machine it.state lb
      if 0x80 ≤ new then return (⟨it.s, it.ix + len, new &&& 0x3f⟩, some (it.ix, decide (0xc0 ≤ new)))
      else next fuel ⟨it.s, it.ix + len, new⟩

/-- All items of the iterator, as `collect` would give them. -/
def collect : Nat → LineBreakIterator → Option (List (Nat × Bool))
  | 0, _ => none
  | fuel + 1, it => do
    match ← next (it.s.length + 2) it with
    | (it, some b) => return b :: (← collect fuel it)
    | (_, none) => return []

end LineBreakIterator

/-- `LineBreakIterator::new(s).collect()`. -/
def lineBreaks (s : List UInt8) : Option (List (Nat × Bool)) := do
  (← LineBreakIterator.new s).collect (s.length + 2)

/-- `LineBreakLeafIter`, unicode/src/lib.rs:149-152. -/
structure LineBreakLeafIter where
  ix : Nat
  state : Nat

namespace LineBreakLeafIter

/-- `LineBreakLeafIter::default`, unicode/src/lib.rs:157-159. -/
def default : LineBreakLeafIter := ⟨0, 0⟩

/-- `LineBreakLeafIter::new`, unicode/src/lib.rs:165-168. -/
def new (s : List UInt8) (ix : Nat) : Option LineBreakLeafIter :=
  if ix = s.length then some ⟨ix, 0⟩
  else do
    let (lb, len) ← lbPropertyStr s ix
    return ⟨ix + len, lb⟩

/-- `LineBreakLeafIter::next`, unicode/src/lib.rs:179-200. -/
def next (s : List UInt8) : Nat → LineBreakLeafIter → Option (LineBreakLeafIter × Nat × Bool)
  | 0, _ => none
  | fuel + 1, it =>
    if it.ix = s.length then some (⟨0, it.state⟩, s.length, false)
    else do
      let (lb, len) ← lbPropertyStr s it.ix
      let new ← machine it.state lb
      if 0x80 ≤ new then return (⟨it.ix + len, new &&& 0x3f⟩, it.ix, decide (0xc0 ≤ new))
      else next s fuel ⟨it.ix + len, new⟩

end LineBreakLeafIter

end Unicode

end Xi
