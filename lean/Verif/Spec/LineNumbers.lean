import Verif.Spec.LineCache

/-!
# The line numbers a front end shows

An `update` (docs/docs/frontend-protocol.md:500-575) with the line numbers that
`Verif/Spec/LineCache.lean` leaves out, and what a front end does with them.  A line that is
the first of a logical line has a number; one that a long line is wrapped into has none.
-/

namespace Xi

variable {T S : Type}

/-- `UpdateOp`, client.rs:248-294, with the numbers: `copy` has that of its first line,
`update` may have it, and the lines of `insert` and `update` have their own. -/
inductive NumOp (T S : Type) where
  | invalidate (n : Nat)
  | skip (n : Nat)
  | copy (n : Nat) (ln : Nat)
  | insert (lines : List ((T × S × Option (List Nat)) × Option Nat))
  | update (lines : List (Option (List Nat) × Option Nat)) (ln : Option Nat)
deriving DecidableEq

/-- The operation without its numbers. -/
def NumOp.plain : NumOp T S → UpdateOp T S
  | .invalidate n => .invalidate n
  | .skip n => .skip n
  | .copy n _ => .copy n
  | .insert lines => .insert (lines.map Prod.fst)
  | .update lines _ => .update (lines.map Prod.fst)

/-- The lines of a front end, each with the number it shows, or `none` if it is invalid. -/
abbrev Numbered (α : Type) := List (Option (α × Option Nat))

/-- The lines without their numbers. -/
def withoutNumbers {α : Type} (ls : Numbered α) : List (Option α) := ls.map fun l => l.map Prod.fst

/-- New numbers from `n` on for the lines that have one.  The front end does not know whether
an invalid line would have one: it takes each to stand for `gap` numbers. -/
def renumber {α : Type} (gap : Nat) : Nat → Numbered α → Numbered α
  | _, [] => []
  | n, none :: r => none :: renumber gap (n + gap) r
  | n, some (l, none) :: r => some (l, none) :: renumber gap n r
  | n, some (l, some _) :: r => some (l, some n) :: renumber gap (n + 1) r

/-- frontend-protocol.md:541-547: "if the first line to be copied is itself a wrapped line,
the `ln` number will need to be incremented in order to be correct for the first 'real'
line". -/
def copyNumbers {α : Type} (gap ln : Nat) : Numbered α → Numbered α
  | some (l, none) :: r => renumber gap (ln + 1) (some (l, none) :: r)
  | ls => renumber gap ln ls

/-- An update as a function from the old lines to the new ones, from the index `ix` into the
old ones: `applyUpdate` with numbers. -/
def applyNumbered (m : Missing) (gap : Nat) (old : Numbered (ScreenLine T S)) : List (NumOp T S) → Nat → Option (Numbered (ScreenLine T S))
  | [], _ => some []
  | .invalidate n :: ops, ix => (applyNumbered m gap old ops ix).map (List.replicate n none ++ ·)
  | .skip n :: ops, ix => applyNumbered m gap old ops (ix + n)
  | .copy n ln :: ops, ix =>
    if ix + n ≤ old.length then (applyNumbered m gap old ops (ix + n)).map (copyNumbers gap ln ((old.drop ix).take n) ++ ·) else none
  | .insert lines :: ops, ix =>
    (applyNumbered m gap old ops ix).map (lines.map (fun l => some (⟨l.1.1, l.1.2.1, l.1.2.2.getD []⟩, l.2)) ++ ·)
  | .update lines _ :: ops, ix =>
    if ix + lines.length ≤ old.length then
      (applyNumbered m gap old ops (ix + lines.length)).map
        (List.zipWith (fun l c => (m.line (l.map Prod.fst) c.1).map fun l => (l, c.2)) ((old.drop ix).take lines.length) lines ++ ·)
    else none

/-- The number that line `i` of a view should show, if `real` says of the text of a line whether
it begins a logical line. -/
def rightNumber (real : T → Bool) (cur : List (ScreenLine T S)) (i : Nat) : Option Nat :=
  match cur[i]? with
  | none => none
  | some c => if real c.text then some ((cur.take i).countP (fun l => real l.text) + 1) else none

/-- Every line the front end has shows the number it should. -/
def NumbersRight (real : T → Bool) (cur : List (ScreenLine T S)) (client : Numbered (ScreenLine T S)) : Prop :=
  ∀ (i : Nat) (L : ScreenLine T S) (n : Option Nat), client[i]? = some (some (L, n)) → n = rightNumber real cur i

end Xi
