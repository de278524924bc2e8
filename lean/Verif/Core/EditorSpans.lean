import Verif.Rope.Engine
import Verif.Core.Layers
import Verif.View.AfterEdit
import Verif.View.Annotations

/-!
# Model of `update_spans` and `update_annotations` of `rust/core-lib/src/editor.rs`

A plugin sends spans for a range of the text, as it was in a revision.  They are carried to the current text and put in the plugin's layer.
-/

namespace Xi

namespace SpansTree

/-- The loop with `SpansBuilder`, editor.rs:609-613 and 647-651. -/
def ofList {T : Type} (len : Nat) (spans : List (Span T)) : Option (SpansTree T) := do
  let sb ← spans.foldlM (fun sb s => do sb.addSpan (← Interval.new s.iv.start s.iv.stop) s.data) (SpansBuilder.new len)
  sb.build

end SpansTree

/-- Where the spans belong, and what they are there, editor.rs:606-627 and 644-664 (the two are the same).  The engine's error for an unknown
revision is only logged. -/
def placeSpans {α T : Type} (tok : RevId → Nat) (e : Engine α) (start len : Nat) (spans : List (Span T)) (rev : Nat) : Option (Interval × SpansTree T) := do
  let stop := start + len
  let tree ← SpansTree.ofList len spans
  if rev ≠ tok (← e.getHeadRevId) then
    match ← e.tryDeltaRevHead tok rev with
    | .ok d =>
      let newStart := d.transformIx start false
      let tree ← if d.intervalUntouched start stop then some tree else tree.transform start stop d
      return (← Interval.new newStart (d.transformIx stop true), tree)
    | .error _ => return (← Interval.new start stop, tree)
  else return (← Interval.new start stop, tree)

/-- `View::invalidate_styles`, view.rs:431-436. -/
def ShownView.invalidateStyles (self : ShownView) (text : Rope) (start stop : Nat) : Option ShownView := do
  let firstLine ← self.wrapping.lines.lineOfOffset text start
  let (lastLine, lastCol) ← self.wrapping.lines.offsetToLineCol text stop
  return { self with shadow := self.shadow.partialInvalidate firstLine (lastLine + if lastCol > 0 then 1 else 0) ⟨false, true, false⟩ }

/-- `Editor::update_spans`, editor.rs:596-630, on the engine, the layers and the view that the plugin names. -/
def updateSpans {α Sc M : Type} [DecidableEq Sc] (tok : RevId → Nat) (e : Engine α) (ls : Layers Sc M) (text : Rope) (v : ShownView) (pid start len : Nat)
    (spans : List (Span Nat)) (rev : Nat) : Option (Layers Sc M × ShownView) := do
  let (iv, tree) ← placeSpans tok e start len spans rev
  let ls ← ls.updateLayer pid iv tree
  return (ls, ← v.invalidateStyles text iv.start iv.stop)

/-- `Editor::update_annotations`, editor.rs:632-666, and `View::update_annotations`, view.rs:438-445, on the engine and the store of the view. -/
def updateAnnotations {α V : Type} (tok : RevId → Nat) (e : Engine α) (store : Gesture.AnnotationStore V) (plugin start len : Nat) (spans : List (Span V))
    (kind : Gesture.AnnotationType) (rev : Nat) : Option (Gesture.AnnotationStore V) := do
  let (iv, tree) ← placeSpans tok e start len spans rev
  store.update plugin iv ⟨tree, kind⟩

end Xi
