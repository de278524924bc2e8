import Verif.Core.Layers
import Verif.Rope.SpansLemmas

/-!
# What the layers of styles are to show

Each plugin has a row of scope numbers over the text, changed by the plugin's
updates and by the edits of the text and by nothing else.  What is shown at a
position is what the styles of the rows give there together, in the order of the
plugins' ids.
-/

namespace Xi

variable {T : Type}

/-- The cell at a position; none outside. -/
def cellIx (t : List (Option T)) (p : Nat) : Option T := t[p]?.join

/-- What the layers say about one position, in the order of their ids. -/
def combine (cells : List (Option Style)) : Option Style := cells.foldl (mergeCell resolveCell) none

/-- The styles of a row of scopes. -/
def styled (lookup : List Style) (row : List (Option Nat)) : List (Option Style) := row.map (fun c => c.bind (fun i => lookup[i]?))

/-- What the rows say together. -/
def combineRows (n : Nat) (rows : List (List (Option Style))) : List (Option Style) :=
  (List.range n).map (fun p => combine (rows.map (fun r => cellIx r p)))

/-- The text's length, the row of each plugin that has one together with the number
of scopes it has defined, and the plugins that have been stopped. -/
structure LayersState where
  len : Nat
  rows : Nat → Option (List (Option Nat) × Nat)
  stopped : List Nat

/-- The row of a plugin, blank if it has none yet. -/
def LayersState.row (s : LayersState) (pid : Nat) : List (Option Nat) × Nat := (s.rows pid).getD (List.replicate s.len none, 0)

/-- The state with another row for a plugin. -/
def LayersState.set (s : LayersState) (pid : Nat) (r : List (Option Nat) × Nat) : LayersState :=
  { s with rows := fun q => if q = pid then some r else s.rows q }

/-- The rows follow an edit of the text. -/
def LayersState.edited {α : Type} (s : LayersState) (d : Delta α) : LayersState :=
  { s with len := d.newDocumentLen, rows := fun q => (s.rows q).map (fun r => (shapeCells r.1 d.els, r.2)) }

/-- What can happen to the layers. -/
inductive LayersOp (Sc M : Type) where
  | addScopes (th : Theme Sc M) (pid : Nat) (stacks : List (List Sc))
  | edit (d : Delta Unit)
  | update (pid : Nat) (iv : Interval) (spans : SpansExpr Nat) (cells : List (Option Nat))
  | remove (pid : Nat)
  | theme (th : Theme Sc M)

variable {Sc M : Type} [DecidableEq Sc]

/-- What the program does. -/
def LayersOp.run (sy : Syntect Sc M) (ls : Layers Sc M) : LayersOp Sc M → Option (Layers Sc M)
  | .addScopes th pid stacks => ls.addScopes sy th pid stacks
  | .edit d => ls.updateAll d
  | .update pid iv spans _ => do ls.updateLayer pid iv (← spans.eval)
  | .remove pid => ls.removeLayer pid
  | .theme th => ls.themeChanged sy th

/-- What is to come of it. -/
def LayersOp.next (s : LayersState) : LayersOp Sc M → LayersState
  | .addScopes _ pid stacks => if pid ∈ s.stopped then s else s.set pid ((s.row pid).1, (s.row pid).2 + stacks.length)
  | .edit d => s.edited d
  | .update pid iv _ cells =>
    if pid ∈ s.stopped then s
    else s.set pid ((s.row pid).1.take iv.start ++ cells ++ (s.row pid).1.drop iv.stop, (s.row pid).2)
  | .remove pid => { s with rows := fun q => if q = pid then none else s.rows q, stopped := pid :: s.stopped }
  | .theme _ => s

/-- When the operation is in order.  For an edit, the last condition is a
restriction that the program needs and its callers do not meet: the edited range,
*in the old text*, must end inside the new text. -/
def LayersOp.Ok (s : LayersState) : LayersOp Sc M → Prop
  | .addScopes _ _ stacks => ∀ st ∈ stacks, st ≠ []
  | .edit d => d.WF ∧ d.baseLen = s.len ∧ d.summary.1.2 ≤ d.newDocumentLen
  | .update pid iv spans cells => spans.Means cells ∧ iv.start ≤ iv.stop ∧ iv.stop ≤ s.len ∧ cells.length = iv.stop - iv.start ∧
      ∀ i, some i ∈ cells → i < (s.row pid).2
  | .remove _ => True
  | .theme _ => True

/-- All operations of a history are in order. -/
def LayersOp.AllOk : LayersState → List (LayersOp Sc M) → Prop
  | _, [] => True
  | s, op :: ops => op.Ok s ∧ AllOk (op.next s) ops

/-- The layers are those of the state: the rows are as they should be, the styles
of a layer are those of its row, and the merged styles are what the layers give
together, in the order of the ids. -/
structure Layers.Shows (ls : Layers Sc M) (s : LayersState) : Prop where
  keys : (ls.layers.map Prod.fst).Pairwise (· < ·)
  stopped : ls.deleted = s.stopped
  rows : ∀ pid, (ls.layers.lookup pid).map (fun l => (l.scopeSpans.text, l.stackLookup.length)) = s.rows pid
  balanced : ∀ x ∈ ls.layers, x.2.scopeSpans.Balanced ∧ x.2.styleSpans.Balanced
  len : ∀ x ∈ ls.layers, x.2.scopeSpans.len = s.len
  styles : ∀ x ∈ ls.layers, x.2.styleLookup.length = x.2.stackLookup.length ∧
    x.2.styleSpans.text = styled x.2.styleLookup x.2.scopeSpans.text
  merged : ls.merged.Balanced ∧ ls.merged.text = combineRows s.len (ls.layers.map (fun x => x.2.styleSpans.text))

end Xi
