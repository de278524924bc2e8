/-!
# Model of `rust/rope/src/interval.rs`

A Rust panic (failed debug assertion, underflow) is `none`.
-/

namespace Xi

/-- `struct Interval`, interval.rs:30-33. -/
structure Interval where
  start : Nat
  stop : Nat
deriving DecidableEq, Repr

namespace Interval

/-- `Interval::new`, interval.rs:38-41. -/
def new (start stop : Nat) : Option Interval := if start ≤ stop then some ⟨start, stop⟩ else none

/-- `Interval::is_before`, interval.rs:79-81. -/
def isBefore (iv : Interval) (val : Nat) : Bool := iv.stop ≤ val

/-- `Interval::contains`, interval.rs:84-86. -/
def contains (iv : Interval) (val : Nat) : Bool := iv.start ≤ val && val < iv.stop

/-- `Interval::is_after`, interval.rs:89-91. -/
def isAfter (iv : Interval) (val : Nat) : Bool := iv.start > val

/-- `Interval::is_empty`, interval.rs:93-95. -/
def isEmpty (iv : Interval) : Bool := iv.stop ≤ iv.start

/-- `Interval::intersect`, interval.rs:98-102. -/
def intersect (iv other : Interval) : Interval :=
  let start := max iv.start other.start
  let stop := min iv.stop other.stop
  ⟨start, max start stop⟩

/-- `Interval::union`, interval.rs:106-116. -/
def union (iv other : Interval) : Interval :=
  if iv.isEmpty then other
  else if other.isEmpty then iv
  else ⟨min iv.start other.start, max iv.stop other.stop⟩

/-- `Interval::prefix`, interval.rs:119-121. -/
def pre (iv other : Interval) : Interval := ⟨min iv.start other.start, min iv.stop other.start⟩

/-- `Interval::suffix`, interval.rs:124-126. -/
def suf (iv other : Interval) : Interval := ⟨max iv.start other.stop, max iv.stop other.stop⟩

/-- `Interval::translate`, interval.rs:129-131. -/
def translate (iv : Interval) (amount : Nat) : Interval := ⟨iv.start + amount, iv.stop + amount⟩

/-- `Interval::translate_neg`, interval.rs:134-137. -/
def translateNeg (iv : Interval) (amount : Nat) : Option Interval :=
  if iv.start ≥ amount ∧ iv.stop ≥ amount then some ⟨iv.start - amount, iv.stop - amount⟩ else none

/-- `Interval::size`, interval.rs:140-142. -/
def size (iv : Interval) : Option Nat := if iv.start ≤ iv.stop then some (iv.stop - iv.start) else none

end Interval

/-- The argument types of `IntervalBounds::into_interval`, interval.rs:157-210:
`Range`, `RangeTo`, `RangeInclusive`, `RangeToInclusive`, `RangeFrom`,
`RangeFull`, and `Interval` itself.  `saturating_add` is `+ 1` here: the model
has no largest number. -/
inductive Bounds where
  | interval (iv : Interval)
  | range (a b : Nat)
  | upto (b : Nat)
  | incl (a b : Nat)
  | uptoIncl (b : Nat)
  | fromOn (a : Nat)
  | full
deriving DecidableEq, Repr

/-- `into_interval`, interval.rs:157-210. -/
def Bounds.intoInterval (upper : Nat) : Bounds → Option Interval
  | .interval iv => some iv
  | .range a b => some ⟨a, b⟩
  | .upto b => Interval.new 0 b
  | .incl a b => Interval.new a (b + 1)
  | .uptoIncl b => Interval.new 0 (b + 1)
  | .fromOn a => Interval.new a upper
  | .full => Interval.new 0 upper

end Xi
