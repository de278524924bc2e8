/-!
# Model of `rust/trace/src/fixed_lifo_deque.rs`

`VecDeque` is a list; capacity is not modelled.  Panics are `none`.
-/

namespace Xi

/-- `struct FixedLifoDeque`, fixed_lifo_deque.rs:35-38. -/
structure FixedLifoDeque (α : Type) where
  storage : List α
  limit : Nat

namespace FixedLifoDeque

variable {α : Type}

/-- `with_limit`, fixed_lifo_deque.rs:52-54; `new` (45-47) is `withLimit 0`. -/
def withLimit (n : Nat) : FixedLifoDeque α := ⟨[], n⟩

/-- `drop_excess_for_inserting`, fixed_lifo_deque.rs:173-179. -/
def dropExcessForInserting (d : FixedLifoDeque α) (n : Nat) : FixedLifoDeque α :=
  if d.storage.length + n > d.limit then
    let overflow := min d.storage.length (d.storage.length + n - d.limit)
    { d with storage := d.storage.drop overflow }
  else d

/-- `reset_limit`, fixed_lifo_deque.rs:60-69; `none` if the assertion fails. -/
def resetLimit (d : FixedLifoDeque α) (n : Nat) : Option (FixedLifoDeque α) :=
  let d := if n < d.limit then d.dropExcessForInserting (d.limit - n) else d
  let d := { d with limit := n }
  if d.storage.length ≤ d.limit then some d else none

/-- `pop_front`, fixed_lifo_deque.rs:183-185. -/
def popFront (d : FixedLifoDeque α) : FixedLifoDeque α × Option α := (⟨d.storage.tail, d.limit⟩, d.storage.head?)

/-- `push_back`, fixed_lifo_deque.rs:191-196. -/
def pushBack (d : FixedLifoDeque α) (value : α) : FixedLifoDeque α :=
  let d := d.dropExcessForInserting 1
  let d := { d with storage := d.storage ++ [value] }
  d.dropExcessForInserting 0

/-- `pop_back`, fixed_lifo_deque.rs:200-202. -/
def popBack (d : FixedLifoDeque α) : FixedLifoDeque α × Option α := (⟨d.storage.dropLast, d.limit⟩, d.storage.getLast?)

/-- `remove`, fixed_lifo_deque.rs:216-218. -/
def remove (d : FixedLifoDeque α) (i : Nat) : FixedLifoDeque α × Option α := (⟨d.storage.eraseIdx i, d.limit⟩, d.storage[i]?)

/-- `split_off`, fixed_lifo_deque.rs:220-222; `VecDeque::split_off` panics if `at` is
beyond the length. -/
def splitOff (d : FixedLifoDeque α) (i : Nat) : Option (FixedLifoDeque α × FixedLifoDeque α) :=
  if i ≤ d.storage.length then some (⟨d.storage.take i, d.limit⟩, ⟨d.storage.drop i, d.limit⟩) else none

/-- `append`, fixed_lifo_deque.rs:225-230. -/
def append (d : FixedLifoDeque α) (other : List α) : FixedLifoDeque α :=
  let d := d.dropExcessForInserting other.length
  let d := { d with storage := d.storage ++ other }
  d.dropExcessForInserting 0

/-- `retain`, fixed_lifo_deque.rs:233-238. -/
def retain (d : FixedLifoDeque α) (f : α → Bool) : FixedLifoDeque α := { d with storage := d.storage.filter f }

/-- `resize`, fixed_lifo_deque.rs:245-252; `VecDeque::resize` cuts off at the back or
adds copies of the value. -/
def resize (d : FixedLifoDeque α) (newLen : Nat) (value : α) : FixedLifoDeque α :=
  if newLen < d.storage.length then { d with storage := d.storage.drop (d.storage.length - newLen) }
  else
    let n := min d.limit newLen
    { d with storage := d.storage.take n ++ List.replicate (n - d.storage.length) value }

/-- `clear`, fixed_lifo_deque.rs:140-142. -/
def clear (d : FixedLifoDeque α) : FixedLifoDeque α := { d with storage := [] }

end FixedLifoDeque

end Xi
