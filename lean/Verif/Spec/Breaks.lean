import Verif.Rope.Breaks

/-!
# Line breaks as a plain list of offsets
-/

namespace Xi

/-- A text of length `len` with breaks at some offsets. -/
structure Layout where
  len : Nat
  breaks : List Nat
deriving DecidableEq

namespace Layout

/-- No breaks. -/
def blank (len : Nat) : Layout := ⟨len, []⟩

/-- One after the other. -/
def append (a b : Layout) : Layout := ⟨a.len + b.len, a.breaks ++ b.breaks.map (a.len + ·)⟩

/-- The part from `s` to `e`; a break at `s` is not part of it, one at `e` is. -/
def part (a : Layout) (s e : Nat) : Layout := ⟨e - s, (a.breaks.filter (fun v => s < v ∧ v ≤ e)).map (· - s)⟩

/-- `n` more units, then a break. -/
def thenBreak (a : Layout) (n : Nat) : Layout := ⟨a.len + n, a.breaks ++ [a.len + n]⟩

/-- `n` more units without a break. -/
def thenBlank (a : Layout) (n : Nat) : Layout := ⟨a.len + n, a.breaks⟩

end Layout

/-- A call on a `BreakBuilder`. -/
inductive BreakCall where
  | brk (n : Nat)
  | blank (n : Nat)

/-- The ways to make a tree of breaks. -/
inductive BreaksExpr where
  | blank (len : Nat)
  | build (calls : List BreakCall)
  | concat (a b : BreaksExpr)
  | slice (a : BreaksExpr) (iv : Interval)
  | edit (a : BreaksExpr) (iv : Interval) (new : BreaksExpr)

/-- What the program does on a call. -/
def BreakCall.run (b : BreakBuilder) : BreakCall → Option BreakBuilder
  | .brk n => b.addBreak n
  | .blank n => some (b.addNoBreak n)

/-- What a call means. -/
def BreakCall.apply (a : Layout) : BreakCall → Layout
  | .brk n => a.thenBreak n
  | .blank n => a.thenBlank n

/-- What the program computes. -/
def BreaksExpr.eval : BreaksExpr → Option Breaks
  | .blank n => some (Breaks.newNoBreak n)
  | .build calls => do (← calls.foldlM BreakCall.run BreakBuilder.new).build
  | .concat a b => do Node.concat (← a.eval) (← b.eval)
  | .slice a iv => do (← a.eval).subseq iv
  | .edit a iv new => do (← a.eval).edit iv (← new.eval)

/-- `e.Means a`: the ranges in `e` are in bounds and no line is empty, and the same
operations on layouts give `a`. -/
def BreaksExpr.Means : BreaksExpr → Layout → Prop
  | .blank n, r => r = .blank n
  | .build calls, r => (∀ n, .brk n ∈ calls → 0 < n) ∧ r = calls.foldl BreakCall.apply (.blank 0)
  | .concat a b, r => ∃ x y, a.Means x ∧ b.Means y ∧ r = x.append y
  | .slice a iv, r => ∃ x, a.Means x ∧ iv.start ≤ iv.stop ∧ iv.stop ≤ x.len ∧ r = x.part iv.start iv.stop
  | .edit a iv new, r => ∃ x y, a.Means x ∧ new.Means y ∧ iv.start ≤ iv.stop ∧ iv.stop ≤ x.len ∧
      r = ((x.part 0 iv.start).append y).append (x.part iv.stop x.len)

end Xi
