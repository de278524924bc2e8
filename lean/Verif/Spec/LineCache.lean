/-!
# The front end's line cache

What the core may send in an `update`, and what a front end does with it
(docs/docs/frontend-protocol.md:500-600).
-/

namespace Xi

/-- A line on the screen: its text, its styles, its cursors. -/
structure ScreenLine (T S : Type) where
  text : T
  styles : S
  cursor : List Nat
deriving DecidableEq

/-- `UpdateOp`, client.rs:248-294, without the logical line numbers.  Inserted lines come
with text and styles, and their cursors if there are any; lines of an `update` come with
nothing but their cursors, if there are any (view.rs:667-690). -/
inductive UpdateOp (T S : Type) where
  | invalidate (n : Nat)
  | skip (n : Nat)
  | copy (n : Nat)
  | insert (lines : List (T × S × Option (List Nat)))
  | update (lines : List (Option (List Nat)))

/-- The number `n` of an operation. -/
def UpdateOp.count {T S : Type} : UpdateOp T S → Nat
  | .invalidate n => n
  | .skip n => n
  | .copy n => n
  | .insert lines => lines.length
  | .update lines => lines.length

/-- How front ends read an `update` of a line without cursors. -/
inductive Missing where
  /-- As the protocol says: the line keeps its cursors. -/
  | keep
  /-- The line has no cursors. -/
  | clear
deriving DecidableEq

/-- The new cursors of a line. -/
def Missing.cursor : Missing → List Nat → Option (List Nat) → List Nat
  | _, _, some c => c
  | .keep, old, none => old
  | .clear, _, none => []

/-- A line of an `update`; an invalid line stays invalid. -/
def Missing.line {T S : Type} (m : Missing) (l : Option (ScreenLine T S)) (c : Option (List Nat)) : Option (ScreenLine T S) :=
  l.map fun l => { l with cursor := m.cursor l.cursor c }

/-- An update as a function from the old lines to the new ones, from the index `ix` into the
old ones.  It is an error to go beyond them. -/
def applyUpdate {T S : Type} (m : Missing) (old : List (Option (ScreenLine T S))) : List (UpdateOp T S) → Nat → Option (List (Option (ScreenLine T S)))
  | [], _ => some []
  | .invalidate n :: ops, ix => (applyUpdate m old ops ix).map (List.replicate n none ++ ·)
  | .skip n :: ops, ix => applyUpdate m old ops (ix + n)
  | .copy n :: ops, ix => if ix + n ≤ old.length then (applyUpdate m old ops (ix + n)).map ((old.drop ix).take n ++ ·) else none
  | .insert lines :: ops, ix => (applyUpdate m old ops ix).map (lines.map (fun l => some ⟨l.1, l.2.1, l.2.2.getD []⟩) ++ ·)
  | .update lines :: ops, ix =>
    if ix + lines.length ≤ old.length then
      (applyUpdate m old ops (ix + lines.length)).map (List.zipWith m.line ((old.drop ix).take lines.length) lines ++ ·)
    else none

end Xi
