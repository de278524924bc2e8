import Verif.Rope.Tree

/-!
# Model of `rust/rope/src/tree.rs`: metrics
-/

namespace Xi

/-- `trait Metric`, tree.rs:148-196.  An outer `none` is a panic. -/
structure Metric (L I : Type) where
  measure : I → Nat → Nat
  toBaseUnits : L → Nat → Option Nat
  fromBaseUnits : L → Nat → Option Nat
  isBoundary : L → Nat → Option Bool
  prev : L → Nat → Option (Option Nat)
  next : L → Nat → Option (Option Nat)
  canFragment : Bool

namespace Node

variable {L I : Type}

/-- `Node::measure`, tree.rs:376-378. -/
def measure (M : Metric L I) (n : Node L I) : Nat := M.measure n.info n.len

/-- The `for` loop of `convert_metrics`, tree.rs:443-450, with the running values
of `m1` and `m2`: the child at which the loop breaks, if any. -/
def convertScan (M1 M2 : Metric L I) (fudge : Nat) : List (Node L I) → Nat → Nat →
    Option (Node L I) × Nat × Nat
  | [], m1, m2 => (none, m1, m2)
  | child :: rest, m1, m2 =>
    if m1 < child.measure M1 + fudge then (some child, m1, m2)
    else convertScan M1 M2 fudge rest (m1 - child.measure M1) (m2 + child.measure M2)

/-- The `while` loop of `convert_metrics`, tree.rs:442-454.  When the `for` loop
ends without `break` the same node is scanned again with what is left of `m1`. -/
def convertLoop (M1 M2 : Metric L I) (fudge : Nat) : Nat → Node L I → Nat → Nat → Option Nat
  | _, .leaf _ _ l, m1, m2 => do
    let base ← M1.toBaseUnits l m1
    return m2 + (← M2.fromBaseUnits l base)
  | 0, .internal _ _ _ _, _, _ => none
  | fuel + 1, .internal h len info cs, m1, m2 =>
    match convertScan M1 M2 fudge cs m1 m2 with
    | (some child, m1, m2) => convertLoop M1 M2 fudge fuel child m1 m2
    | (none, m1, m2) => convertLoop M1 M2 fudge fuel (.internal h len info cs) m1 m2

/-- `Node::convert_metrics`, tree.rs:430-455.  Each round of the `while` loop
either goes down one level or takes the measure of the node off `m1`; with the
measure 0 the program would loop for ever, the model returns `none`. -/
def convertMetrics (M1 M2 : Metric L I) (n : Node L I) (m1 : Nat) : Option Nat :=
  if m1 = 0 then some 0
  else
    let fudge := if M1.canFragment then 1 else 0
    convertLoop M1 M2 fudge (n.height + m1 + 1) n m1 0

end Node

end Xi
