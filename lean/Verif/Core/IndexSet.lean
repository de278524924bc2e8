import Verif.Rope.Delta

/-!
# Model of `rust/core-lib/src/index_set.rs`

`struct IndexSet` (index_set.rs:24-26) is its list of ranges.
-/

namespace Xi

/-- `remove_n_at`, index_set.rs:28-42; the loop that moves elements down is modelled by
its result. -/
def removeNAt {α : Type} (v : List α) (index n : Nat) : Option (List α) :=
  if n = 1 then
    if index < v.length then some (v.eraseIdx index) else none
  else if n > 1 then
    if n ≤ v.length then some (if index ≤ v.length - n then v.take index ++ v.drop (index + n) else v.take (v.length - n)) else none
  else some v

namespace IndexSet

/-- The `while` loop over `j`, index_set.rs:67-70, for the ranges after the one being
extended: the end of the last range that is joined, and the ranges after it (which
is what `remove_n_at` leaves, index_set.rs:72). -/
def joinRanges (stop : Nat) : Nat → List (Nat × Nat) → Nat × List (Nat × Nat)
  | last, (a, b) :: rest => if stop ≥ a then joinRanges stop b rest else (last, (a, b) :: rest)
  | last, [] => (last, [])

/-- `union_one_range`, index_set.rs:56-76; the loop over `i` is recursion over the
list. -/
def unionOneRange (start stop : Nat) : List (Nat × Nat) → List (Nat × Nat)
  | [] => [(start, stop)]
  | (a, b) :: rest =>
    if start > b then (a, b) :: unionOneRange start stop rest
    else if stop < a then (start, stop) :: (a, b) :: rest
    else
      let j := joinRanges stop b rest
      (min start a, max stop j.1) :: j.2

/-- The state of the loop of `delete_range`: the ranges before `ix`, `del_from`,
`del_len`; the ranges from `ix` on are an argument of the loop. -/
structure DelState where
  done : List (Nat × Nat)
  from_ : Option Nat
  len : Nat

/-- The loop of `delete_range`, index_set.rs:88-112; the result are all ranges,
`del_from` and `del_len`. -/
def deleteLoop (start stop : Nat) : Nat → List (Nat × Nat) → DelState → Option DelState
  | 0, _, _ => none
  | _ + 1, [], s => some s
  | fuel + 1, (a, b) :: rest, s =>
    if a ≥ stop then some { s with done := s.done ++ (a, b) :: rest }
    else if a < start then
      if b > stop then deleteLoop start stop fuel ((stop, b) :: rest) { s with done := s.done ++ [(a, start)] }
      else deleteLoop start stop fuel rest { s with done := s.done ++ [(a, start)] }
    else if b > stop then deleteLoop start stop fuel rest { s with done := s.done ++ [(stop, b)] }
    else deleteLoop start stop fuel rest
      ⟨s.done ++ [(a, b)], if s.from_.isNone then some s.done.length else s.from_, s.len + 1⟩

/-- The end of `delete_range`, index_set.rs:110-112. -/
def finishDelete (s : DelState) : Option (List (Nat × Nat)) :=
  match s.from_ with
  | some delFrom => removeNAt s.done delFrom s.len
  | none => some s.done

/-- `delete_range`, index_set.rs:79-113; `binary_search_by` is modelled by its meaning:
the ends of the ranges increase. -/
def deleteRange (ranges : List (Nat × Nat)) (start stop : Nat) : Option (List (Nat × Nat)) := do
  let ix := ranges.findIdx (fun r => r.2 ≥ start)
  finishDelete (← deleteLoop start stop (ranges.length + 2) (ranges.drop ix) ⟨ranges.take ix, none, 0⟩)

/-- `struct MinusIter`, index_set.rs:154-158. -/
structure MinusIter where
  ranges : List (Nat × Nat)
  start : Nat
  stop : Nat
deriving DecidableEq

/-- `minus_one_range`, index_set.rs:116-122. -/
def minusOneRange (ranges : List (Nat × Nat)) (start stop : Nat) : MinusIter :=
  ⟨ranges.dropWhile (fun r => start ≥ r.2), start, stop⟩

/-- The loop of `next`, index_set.rs:163-178. -/
def minusNext (stop : Nat) : List (Nat × Nat) → Nat → Option (Nat × Nat) × MinusIter
  | [], start => if start < stop then (some (start, stop), ⟨[], stop, stop⟩) else (none, ⟨[], start, stop⟩)
  | (a, b) :: rest, start =>
    if start < stop then
      if stop ≤ a then (some (start, stop), ⟨(a, b) :: rest, stop, stop⟩)
      else if a > start then (some (start, a), ⟨rest, b, stop⟩)
      else minusNext stop rest b
    else (none, ⟨(a, b) :: rest, start, stop⟩)

/-- `MinusIter::next`, index_set.rs:163-178. -/
def MinusIter.next (it : MinusIter) : Option (Nat × Nat) × MinusIter := minusNext it.stop it.ranges it.start

/-- The loop of `next_back`, index_set.rs:182-198; the ranges are in reverse order. -/
def minusBack (start : Nat) : List (Nat × Nat) → Nat → Option (Nat × Nat) × MinusIter
  | [], stop => if start < stop then (some (start, stop), ⟨[], stop, stop⟩) else (none, ⟨[], start, stop⟩)
  | (a, b) :: rest, stop =>
    if start < stop then
      if b ≤ start then (some (start, stop), ⟨(rest.reverse ++ [(a, b)]), stop, stop⟩)
      else if stop > b then (some (b, stop), ⟨rest.reverse, start, a⟩)
      else minusBack start rest a
    else (none, ⟨rest.reverse ++ [(a, b)], start, stop⟩)

/-- `MinusIter::next_back`, index_set.rs:182-198. -/
def MinusIter.nextBack (it : MinusIter) : Option (Nat × Nat) × MinusIter := minusBack it.start it.ranges.reverse it.stop

/-- The loop of `apply_delta`, index_set.rs:129-143. -/
def applyLoop {α : Type} (delta : Delta α) : List (Nat × Nat) → List (Nat × Nat) → List (Nat × Nat)
  | [], ranges => ranges
  | (a, b) :: rest, ranges =>
    let new := (delta.transformIx a false, delta.transformIx b false)
    if new.1 = new.2 then applyLoop delta rest ranges
    else match ranges.getLast? with
      | some last =>
        if last.2 = new.1 then applyLoop delta rest (ranges.dropLast ++ [(last.1, new.2)])
        else applyLoop delta rest (ranges ++ [new])
      | none => applyLoop delta rest (ranges ++ [new])

/-- `apply_delta`, index_set.rs:126-145. -/
def applyDelta {α : Type} (ranges : List (Nat × Nat)) (delta : Delta α) : List (Nat × Nat) := applyLoop delta ranges []

end IndexSet

end Xi
