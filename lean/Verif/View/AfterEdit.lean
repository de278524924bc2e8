import Verif.View.Gesture
import Verif.Core.Wrap
import Verif.Core.LineCache

/-!
# Model of how `rust/core-lib/src/view.rs` follows the text

What a view has of the lines (`lines`), of what the front end has (`lc_shadow`), and the selection.  The other
things `after_edit` does are left out here: it ends a drag, drops annotations and updates the highlights of searches
(find.rs, C72).
-/

namespace Xi

/-- The parts of `struct View`, view.rs:51-104, that follow the text. -/
structure ShownView where
  lines : LinesState
  shadow : LineCacheShadow
  selection : Selection

namespace ShownView

/-- The part of `lines` that places in the text are computed with. -/
def wrapping (self : ShownView) : Gesture.Wrapping := ⟨self.lines.wraps, self.lines.breaks⟩

/-- `set_dirty`, view.rs:943-949. -/
def setDirty (self : ShownView) (text : Rope) : Option ShownView := do
  let height := (← self.wrapping.lines.lineOfOffset text text.len) + 1
  return { self with shadow := .allDirty height }

/-- `rewrap`, view.rs:960-973; the lines `visStart..visEnd` are visible. -/
def rewrap (self : ShownView) (rule : WrapRule) (text : Rope) (content : List UInt8) (visStart visEnd : Nat) : Option ShownView := do
  let (lines, inval) ← self.lines.rewrapChunk rule text content visStart visEnd
  let self := { self with lines := lines }
  match inval with
  | some i => return { self with shadow := self.shadow.edit i.startLine (i.startLine + i.invalCount) i.newCount }
  | none => return self

/-- `after_edit`, view.rs:978-1013, and `set_selection_for_edit`, view.rs:387-391. -/
def afterEdit (self : ShownView) (rule : WrapRule) (text lastText : Rope) (content : List UInt8) (delta : Delta UInt8) (visStart visEnd : Nat)
    (drift : InsertDrift) : Option ShownView := do
  let s := delta.summary
  let (lines, inval) ← self.lines.afterEdit rule text lastText content ⟨s.1.1, s.1.2⟩ s.2 visStart visEnd
  let self := { self with lines := lines }
  let self ← match inval with
    | some i => some { self with shadow := self.shadow.edit i.startLine (i.startLine + i.invalCount) i.newCount }
    | none => self.setDirty text
  return { self with selection := ← self.selection.applyDelta delta true drift }

end ShownView

end Xi
