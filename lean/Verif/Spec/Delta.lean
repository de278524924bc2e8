import Verif.Rope.Delta

/-!
# Specification of edits

A well-formed edit copies non-empty, increasing, disjoint ranges of the old text
and inserts non-empty texts.  This is what `Builder`, `synthesize` and the
documentation of `Delta` (delta.rs:34-40) promise.
-/

namespace Xi

variable {α : Type}

/-- The copied ranges start at or after `lo`, are non-empty, increasing and end
at or before `n`; insertions are non-empty. -/
def ElsWF (n : Nat) : Nat → List (DeltaElement α) → Prop
  | lo, [] => lo ≤ n
  | lo, .copy b e :: rest => lo ≤ b ∧ b < e ∧ ElsWF n e rest
  | lo, .insert s :: rest => s ≠ [] ∧ ElsWF n lo rest

/-- Well-formed edit. -/
def Delta.WF (d : Delta α) : Prop := ElsWF d.baseLen 0 d.els

instance decElsWF : (n lo : Nat) → (els : List (DeltaElement α)) → Decidable (ElsWF n lo els)
  | n, lo, [] => inferInstanceAs (Decidable (lo ≤ n))
  | n, lo, .copy b e :: rest =>
    have := decElsWF n e rest
    inferInstanceAs (Decidable (lo ≤ b ∧ b < e ∧ ElsWF n e rest))
  | n, lo, .insert s :: rest =>
    have := decElsWF n lo rest
    match s with
    | [] => isFalse (fun h => h.1 rfl)
    | _ :: _ => decidable_of_iff (ElsWF n lo rest) ⟨fun h => ⟨by simp, h⟩, fun h => h.2⟩

instance (d : Delta α) : Decidable d.WF := decElsWF _ _ _

/-- The new text described by an edit: copied pieces and inserted pieces in
order. -/
def elsText (base : List α) (els : List (DeltaElement α)) : List α :=
  els.flatMap fun
    | .copy b e => (base.take e).drop b
    | .insert s => s

/-- The text an edit produces from `base`. -/
def Delta.result (d : Delta α) (base : List α) : List α := elsText base d.els

/-- Mask of an element list: inserted elements are marked. -/
def elsMask (els : List (DeltaElement α)) : List Nat :=
  els.flatMap fun
    | .copy b e => List.replicate (e - b) 0
    | .insert s => List.replicate s.length 1

/-- Some copy covers position `j`. -/
def coveredAt (els : List (DeltaElement α)) (j : Nat) : Bool :=
  els.any fun
    | .copy b e => decide (b ≤ j) && decide (j < e)
    | .insert _ => false

/-- The copies are contiguous and cover `[lo, hi)`. -/
def Contig : Nat → Nat → List (DeltaElement α) → Prop
  | lo, hi, [] => lo = hi
  | lo, hi, .copy b e :: rest => b = lo ∧ b ≤ e ∧ Contig e hi rest
  | lo, hi, .insert _ :: rest => Contig lo hi rest

/-- No empty element. -/
def PosEl : DeltaElement α → Prop
  | .copy b e => b < e
  | .insert s => s ≠ []

/-- Well-formed insertion edit: everything is copied, nothing is deleted. -/
def InsertDelta.WF (d : InsertDelta α) : Prop :=
  Contig 0 d.d.baseLen d.d.els ∧ ∀ el ∈ d.d.els, PosEl el

/-- The text after a sorted list of replacements, from offset `lo` on. -/
def replaced (base : List α) : Nat → List (Nat × Nat × List α) → List α
  | lo, [] => base.drop lo
  | lo, (s, e, r) :: rest => (base.take s).drop lo ++ r ++ replaced base e rest

/-- Replacements are sorted, disjoint and inside the text. -/
def ScriptOk (n : Nat) : Nat → List (Nat × Nat × List α) → Prop
  | lo, [] => lo ≤ n
  | lo, (s, e, _) :: rest => lo ≤ s ∧ s ≤ e ∧ ScriptOk n e rest

/-- Feed replacements to a builder. -/
def DeltaBuilder.run (b : DeltaBuilder α) (script : List (Nat × Nat × List α)) : Option (DeltaBuilder α) :=
  script.foldlM (fun b x => b.replace x.1 x.2.1 x.2.2) b

end Xi
