import Verif.View.Gesture
import Verif.Rope.Spans
import Verif.Rope.RopeCursor
import Verif.Spec.LineCache

/-!
# Model of how `rust/core-lib/src/view.rs` encodes the lines it sends

Styles are numbered by a function; `get_or_def_style_id` (view.rs:734-743) makes up the numbers.
-/

namespace Xi.Gesture

/-- `clamp`, view.rs:1301-1309. -/
def clamp (x lo hi : Nat) : Nat := if x < lo then lo else if x < hi then x else hi

/-- Whether the cursor of a region is on the line from `start` to `pos`, view.rs:634-638. -/
def showsCursor (start pos lastPos : Nat) (region : SelRegion) : Bool :=
  (region.stop > start && region.stop < pos) || (!region.upstream && region.stop == start) || (region.upstream && region.stop == pos) ||
    (region.stop == pos && region.stop == lastPos)

/-- The part of a region that is on the line, view.rs:644-648 and 657-661. -/
def interior (start pos : Nat) (region : SelRegion) : Option (Nat × Nat) :=
  if clamp region.hi start pos - start > clamp region.lo start pos - start then
    some (clamp region.lo start pos - start, clamp region.hi start pos - start)
  else none

/-- The loop of `encode_styles`, view.rs:701-724: places are relative to the end of what comes before. -/
def pushStyles (ix : Int) : List (Nat × Nat × Nat) → List Int
  | [] => []
  | (start, stop, style) :: rest => (start - ix) :: ((stop : Int) - start) :: (style : Int) :: pushStyles stop rest

/-- What `encode_styles` encodes, in this order: find highlights, selections, styles (view.rs:705-724). -/
def styleList {T : Type} (styleId : T → Nat) (sel : List (Nat × Nat)) (hls : List (List (Nat × Nat))) (spans : List (Span T)) : List (Nat × Nat × Nat) :=
  (hls.mapIdx fun index hl => hl.map fun p => (p.1, p.2, index + 1)).flatten ++ sel.map (fun p => (p.1, p.2, 0)) ++
    spans.map (fun s => (s.iv.start, s.iv.stop, styleId s.data))

/-- `encode_styles`, view.rs:692-732. -/
def encodeStyles {T : Type} (styleId : T → Nat) (start stop : Nat) (sel : List (Nat × Nat)) (hls : List (List (Nat × Nat))) (styleSpans : SpansTree T) :
    Option (List Int) :=
  if start ≤ stop then do
    let spans ← SpansTree.iter (← styleSpans.subseq (← Interval.new start stop))
    return pushStyles 0 (styleList styleId sel hls spans)
  else none

/-- `encode_line`, view.rs:618-690, with its text and styles; `find` has the occurrences of each
query, if they are to be highlighted.  The line number is left out. -/
def encodeLine {T : Type} (find : List Selection) (styleId : T → Nat) (styleSpans : SpansTree T) (text : Rope) (sel : Selection) (line : VisualLine) :
    Option (ScreenLine (List UInt8) (List Int)) := do
  let start := line.interval.start
  let pos := line.interval.stop
  let regions ← sel.regionsInRange start pos
  let hls ← find.mapM fun f => do return (← f.regionsInRange start pos).filterMap (interior start pos)
  let t ← text.sliceToCow (.range start pos)
  let styles ← encodeStyles styleId start pos (regions.filterMap (interior start pos)) hls styleSpans
  return ⟨t, styles, (regions.filter (showsCursor start pos text.len)).map fun q => q.stop - start⟩

/-- All the lines of a view (`send_update_for_plan` encodes some of them, view.rs:801-880). -/
def screen {T : Type} (find : List Selection) (styleId : T → Nat) (styleSpans : SpansTree T) (ls : Wrapping) (text : Rope) (sel : Selection) :
    Option (List (ScreenLine (List UInt8) (List Int))) := do
  let lines ← (← iterLines ls.breaks text 0).collect (text.len + 2)
  lines.mapM (encodeLine find styleId styleSpans text sel)

end Xi.Gesture
