import Verif.Core.ThemeStyleMap
import Verif.Core.LineCache
import Verif.View.Encode

/-!
# Model of how `rust/core-lib/src/view.rs` numbers the styles of the lines it sends

In `View/Encode.lean` the numbers are given by a function; here they are made up while the lines
are encoded, as `get_or_def_style_id` does it.
-/

namespace Xi.Gesture

/-- What a stretch of a line is encoded for, view.rs:705-728. -/
inductive StyleRef where
  | find (index : Nat)
  | selection
  | style (s : Style)
deriving DecidableEq

/-- A line's styles before they are numbered: start, end and what for. -/
abbrev StyleRefs := List (Nat × Nat × StyleRef)

/-- What `encode_styles` encodes, in this order (view.rs:705-724); see `styleList`. -/
def refList (sel : List (Nat × Nat)) (hls : List (List (Nat × Nat))) (spans : List (Span Style)) : StyleRefs :=
  (hls.mapIdx fun index hl => hl.map fun p => (p.1, p.2, StyleRef.find index)).flatten ++ sel.map (fun p => (p.1, p.2, .selection)) ++
    spans.map (fun s => (s.iv.start, s.iv.stop, .style s.data))

variable {Th : Type}

/-- The number of one stretch, view.rs:714, 721, 725: the number, the new map, the definitions sent. -/
def numberOne (m : ThemeStyleMap Th) : StyleRef → Nat × ThemeStyleMap Th × List (Nat × Style)
  | .find index => (index + 1, m, [])
  | .selection => (0, m, [])
  | .style s => m.getOrDef s

/-- The loops of `encode_styles`, view.rs:705-729, without the encoding of the places. -/
def numberRefs (m : ThemeStyleMap Th) : StyleRefs → List (Nat × Nat × Nat) × ThemeStyleMap Th × List (Nat × Style)
  | [] => ([], m, [])
  | (start, stop, r) :: rest =>
    let one := numberOne m r
    let more := numberRefs one.2.1 rest
    ((start, stop, one.1) :: more.1, more.2.1, one.2.2 ++ more.2.2)

/-- The lines of an `insert`, view.rs:861-875, one after the other. -/
def numberLines {T : Type} (m : ThemeStyleMap Th) :
    List (T × StyleRefs × Option (List Nat)) → List (T × List Int × Option (List Nat)) × ThemeStyleMap Th × List (Nat × Style)
  | [] => ([], m, [])
  | (t, refs, c) :: rest =>
    let one := numberRefs m refs
    let more := numberLines one.2.1 rest
    ((t, pushStyles 0 one.1, c) :: more.1, more.2.1, one.2.2 ++ more.2.2)

/-- The operations of an update, view.rs:796-883: only inserted lines are encoded with their styles. -/
def numberOps {T : Type} (m : ThemeStyleMap Th) : List (UpdateOp T StyleRefs) → List (UpdateOp T (List Int)) × ThemeStyleMap Th × List (Nat × Style)
  | [] => ([], m, [])
  | .insert lines :: rest =>
    let one := numberLines m lines
    let more := numberOps one.2.1 rest
    (.insert one.1 :: more.1, more.2.1, one.2.2 ++ more.2.2)
  | .invalidate n :: rest => let more := numberOps m rest; (.invalidate n :: more.1, more.2)
  | .skip n :: rest => let more := numberOps m rest; (.skip n :: more.1, more.2)
  | .copy n :: rest => let more := numberOps m rest; (.copy n :: more.1, more.2)
  | .update lines :: rest => let more := numberOps m rest; (.update lines :: more.1, more.2)

end Xi.Gesture
