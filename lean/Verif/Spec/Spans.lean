import Verif.Rope.Spans
import Verif.Spec.Delta

/-!
# Spans as values at positions

A set of spans over a text of length `n` stands for a sequence of `n` cells: the
one at `p` is the value of the span that covers `p`, if there is one.
-/

namespace Xi

variable {T O : Type}

/-- The value at the position `p`: that of the first span that covers it. -/
def cellAt (spans : List (Span T)) (p : Nat) : Option T :=
  (spans.find? (fun s => s.iv.start ≤ p ∧ p < s.iv.stop)).map Span.data

/-- The cells of a text of length `len`. -/
def paint (len : Nat) (spans : List (Span T)) : List (Option T) := (List.range len).map (cellAt spans)

/-- The spans are not empty, come one after the other, and lie between `lo` and
`hi`. -/
def SpansIn (lo hi : Nat) : List (Span T) → Prop
  | [] => True
  | s :: rest => lo ≤ s.iv.start ∧ s.iv.start < s.iv.stop ∧ s.iv.stop ≤ hi ∧ SpansIn s.iv.stop hi rest

instance decSpansIn : (lo hi : Nat) → (l : List (Span T)) → Decidable (SpansIn lo hi l)
  | _, _, [] => isTrue trivial
  | lo, hi, s :: rest =>
    have := decSpansIn s.iv.stop hi rest
    inferInstanceAs (Decidable (lo ≤ s.iv.start ∧ s.iv.start < s.iv.stop ∧ s.iv.stop ≤ hi ∧ SpansIn s.iv.stop hi rest))

/-- What `merge` is to do with two cells. -/
def mergeCell (f : T → Option T → O) : Option T → Option T → Option O
  | none, none => none
  | some a, none => some (f a none)
  | none, some b => some (f b none)
  | some a, some b => some (f a (some b))

/-- What a delta does to the cells: copied ones stay, inserted ones are empty. -/
def shapeCells {α : Type} (cells : List (Option T)) : List (DeltaElement α) → List (Option T)
  | [] => []
  | .copy b e :: rest => (cells.take e).drop b ++ shapeCells cells rest
  | .insert s :: rest => List.replicate s.length none ++ shapeCells cells rest

/-- The ways to make spans.  (`merge` can change the type of the values; that is
stated apart.) -/
inductive SpansExpr (T : Type) where
  | build (len : Nat) (spans : List (Span T))
  | concat (a b : SpansExpr T)
  | slice (a : SpansExpr T) (iv : Interval)
  | edit (a : SpansExpr T) (iv : Interval) (new : SpansExpr T)
  | merge (a b : SpansExpr T) (f : T → Option T → T)
  | shape (a : SpansExpr T) (d : Delta Unit)

/-- What the program computes. -/
def SpansExpr.eval : SpansExpr T → Option (SpansTree T)
  | .build len spans => do
    (← spans.foldlM (fun sb s => sb.addSpan s.iv s.data) (SpansBuilder.new len)).build
  | .concat a b => do Node.concat (← a.eval) (← b.eval)
  | .slice a iv => do (← a.eval).subseq iv
  | .edit a iv new => do (← a.eval).edit iv (← new.eval)
  | .merge a b f => do (← a.eval).merge (← b.eval) f
  | .shape a d => do (← a.eval).applyShape d

/-- `e.Means r`: the spans and ranges in `e` are in order and in bounds, and the
same operations on cells give `r`. -/
def SpansExpr.Means : SpansExpr T → List (Option T) → Prop
  | .build len spans, r => SpansIn 0 len spans ∧ r = paint len spans
  | .concat a b, r => ∃ x y, a.Means x ∧ b.Means y ∧ r = x ++ y
  | .slice a iv, r => ∃ x, a.Means x ∧ iv.start ≤ iv.stop ∧ iv.stop ≤ x.length ∧ r = (x.take iv.stop).drop iv.start
  | .edit a iv new, r => ∃ x y, a.Means x ∧ new.Means y ∧ iv.start ≤ iv.stop ∧ iv.stop ≤ x.length ∧
      r = x.take iv.start ++ y ++ x.drop iv.stop
  | .merge a b f, r => ∃ x y, a.Means x ∧ b.Means y ∧ x.length = y.length ∧ r = List.zipWith (mergeCell f) x y
  | .shape a d, r => ∃ x, a.Means x ∧ d.WF ∧ d.baseLen = x.length ∧ r = shapeCells x d.els

end Xi
