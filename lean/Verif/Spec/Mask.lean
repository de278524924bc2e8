/-!
# Specification: masks on lists

A mask is a `List Nat`; a position is *marked* when its entry is non-zero.
These definitions do not refer to the model of the code.
-/

namespace Xi

/-- The elements of `xs` at unmarked positions, in order. -/
def keep {α : Type} : List Nat → List α → List α
  | 0 :: cs, x :: xs => x :: keep cs xs
  | (_ + 1) :: cs, _ :: xs => keep cs xs
  | _, _ => []

/-- Swap marked and unmarked. -/
def flipMask (cs : List Nat) : List Nat := cs.map (fun c => if c = 0 then 1 else 0)

/-- The number of unmarked positions. -/
def zeros (cs : List Nat) : Nat := cs.countP (· == 0)

/-- Spread the entries of `cs` over the unmarked positions of `o`; marked
positions get `0`. -/
def expandMask : List Nat → List Nat → List Nat
  | [], _ => []
  | 0 :: o, c :: cs => c :: expandMask o cs
  | 0 :: o, [] => 0 :: expandMask o []
  | (_ + 1) :: o, cs => 0 :: expandMask o cs

/-- Interleave: unmarked positions of `o` take the next element of `xs`, marked
ones the next element of `ys`. -/
def weave {α : Type} : List Nat → List α → List α → List α
  | [], _, _ => []
  | 0 :: o, x :: xs, ys => x :: weave o xs ys
  | 0 :: _, [], _ => []
  | (_ + 1) :: o, xs, y :: ys => y :: weave o xs ys
  | (_ + 1) :: _, _, [] => []

end Xi
