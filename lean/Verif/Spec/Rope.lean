import Verif.Rope.Rope
import Verif.Rope.TreeDelta
import Verif.Spec.Tree
import Verif.Spec.Utf8

/-!
# Histories of rope operations and what they mean on plain strings
-/

namespace Xi

/-- The first position of a range. -/
def Bounds.lo : Bounds → Nat
  | .interval iv => iv.start
  | .range a _ => a
  | .upto _ => 0
  | .incl a _ => a
  | .uptoIncl _ => 0
  | .fromOn a => a
  | .full => 0

/-- The position after the last one of a range, in a text of length `n`. -/
def Bounds.hi (n : Nat) : Bounds → Nat
  | .interval iv => iv.stop
  | .range _ b => b
  | .upto b => b
  | .incl _ b => b + 1
  | .uptoIncl b => b + 1
  | .fromOn _ => n
  | .full => n

mutual

/-- The ways to make a rope: from a string, with `concat` or `+`, by slicing, by
editing, and with a tree builder. -/
inductive RopeExpr where
  | str (s : List UInt8)
  | concat (a b : RopeExpr)
  | add (a b : RopeExpr)
  | slice (a : RopeExpr) (iv : Bounds)
  | edit (a : RopeExpr) (iv : Bounds) (new : RopeExpr)
  | build (b : BuilderExpr)

/-- What can be done with a tree builder before `build`: push a rope, a string,
a string short enough to be one leaf, a part of such a string, or a part of a rope. -/
inductive BuilderExpr where
  | new
  | push (b : BuilderExpr) (r : RopeExpr)
  | pushStr (b : BuilderExpr) (s : List UInt8)
  | pushLeaf (b : BuilderExpr) (s : List UInt8)
  | pushLeafSlice (b : BuilderExpr) (s : List UInt8) (iv : Interval)
  | pushSubseq (b : BuilderExpr) (r : RopeExpr) (iv : Interval)

end

mutual

/-- What the program computes. -/
def RopeExpr.eval : RopeExpr → Option Rope
  | .str s => Rope.fromStr s
  | .concat a b => do Node.concat (← a.eval) (← b.eval)
  | .add a b => do Rope.add (← a.eval) (← b.eval)
  | .slice a iv => do Rope.slice (← a.eval) iv
  | .edit a iv new => do Rope.edit (← a.eval) iv (← new.eval)
  | .build b => do (← b.eval).build

/-- What the program computes. -/
def BuilderExpr.eval : BuilderExpr → Option (TreeBuilder (List UInt8) RopeInfo)
  | .new => some TreeBuilder.new
  | .push b r => do (← b.eval).push (← r.eval)
  | .pushStr b s => do Rope.pushStr (← b.eval) s
  | .pushLeaf b s => do (← b.eval).pushLeaf s
  | .pushLeafSlice b s iv => do (← b.eval).pushLeafSlice s iv
  | .pushSubseq b r iv => do (← r.eval).pushSubseq (← b.eval) iv

end

/-- `t` is the part of the string `s` from `lo` to `hi`; both are in range and on
character boundaries. -/
def Cuts (s : List UInt8) (lo hi : Nat) (t : List UInt8) : Prop :=
  lo ≤ hi ∧ CharBoundary s lo ∧ CharBoundary s hi ∧ t = (s.take hi).drop lo

mutual

/-- `e.Means t`: the same operations on plain strings are in range and on character
boundaries, and give `t`. -/
def RopeExpr.Means : RopeExpr → List UInt8 → Prop
  | .str s, t => Utf8 s ∧ t = s
  | .concat a b, t => ∃ x y, a.Means x ∧ b.Means y ∧ t = x ++ y
  | .add a b, t => ∃ x y, a.Means x ∧ b.Means y ∧ t = x ++ y
  | .slice a iv, t => ∃ x, a.Means x ∧ Cuts x iv.lo (iv.hi x.length) t
  | .edit a iv new, t => ∃ x y pre post, a.Means x ∧ new.Means y ∧ iv.lo ≤ iv.hi x.length ∧
      Cuts x 0 iv.lo pre ∧ Cuts x (iv.hi x.length) x.length post ∧ t = pre ++ y ++ post
  | .build b, t => b.Means t

/-- … and the same for the pieces pushed into a builder. -/
def BuilderExpr.Means : BuilderExpr → List UInt8 → Prop
  | .new, t => t = []
  | .push b r, t => ∃ x y, b.Means x ∧ r.Means y ∧ t = x ++ y
  | .pushStr b s, t => ∃ x, b.Means x ∧ Utf8 s ∧ t = x ++ s
  | .pushLeaf b s, t => ∃ x, b.Means x ∧ Utf8 s ∧ s.length ≤ 1024 ∧ t = x ++ s
  | .pushLeafSlice b s iv, t => ∃ x y, b.Means x ∧ Utf8 s ∧ s.length ≤ 1024 ∧ Cuts s iv.start iv.stop y ∧ t = x ++ y
  | .pushSubseq b r iv, t => ∃ x y z, b.Means x ∧ r.Means y ∧ Cuts y iv.start iv.stop z ∧ t = x ++ z

end

/-- Every leaf of a tree but a lone one has from 511 to 1024 bytes. -/
def LeafSizes (r : Rope) : Prop :=
  ∀ l ∈ r.leaves, l.length ≤ 1024 ∧ (r.leaves.length ≠ 1 → 511 ≤ l.length)

end Xi
