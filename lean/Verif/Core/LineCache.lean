import Verif.Spec.LineCache

/-!
# Model of `rust/core-lib/src/line_cache_shadow.rs`, and of the updates `view.rs` makes from it

Numbers are unbounded.  The lines of the view (text, wrapping, styles, selection) are an
arbitrary list of `ScreenLine`s; annotations, find status and logical line numbers are left
out.
-/

namespace Xi

/-- `Validity`, line_cache_shadow.rs:33-39: one flag for each bit. -/
structure Validity where
  text : Bool
  styles : Bool
  cursor : Bool
deriving DecidableEq

/-- `INVALID`, line_cache_shadow.rs:35. -/
def Validity.invalid : Validity := ⟨false, false, false⟩

/-- `ALL_VALID`, line_cache_shadow.rs:39. -/
def Validity.all : Validity := ⟨true, true, true⟩

/-- `self & !other`. -/
def Validity.minus (self other : Validity) : Validity := ⟨self.text && !other.text, self.styles && !other.styles, self.cursor && !other.cursor⟩

/-- `(self & other) != 0`. -/
def Validity.meets (self other : Validity) : Bool := (self.text && other.text) || (self.styles && other.styles) || (self.cursor && other.cursor)

/-- `struct Span`, line_cache_shadow.rs:41-51. -/
structure ShadowSpan where
  n : Nat
  start : Nat
  validity : Validity
deriving DecidableEq

/-- `struct LineCacheShadow`, line_cache_shadow.rs:28-31. -/
structure LineCacheShadow where
  spans : List ShadowSpan
  dirty : Bool
deriving DecidableEq

/-- `enum RenderTactic`, line_cache_shadow.rs:59-67. -/
inductive RenderTactic where
  | discard
  | preserve
  | render
deriving DecidableEq

/-- `struct RenderPlan`, line_cache_shadow.rs:69-72. -/
abbrev RenderPlan := List (Nat × RenderTactic)

/-- `struct PlanSegment`, line_cache_shadow.rs:83-94. -/
structure PlanSegment where
  ours : Nat
  theirs : Nat
  n : Nat
  validity : Validity
  tactic : RenderTactic
deriving DecidableEq

/-- `Builder::add_span`, line_cache_shadow.rs:105-117. -/
def addSpan (spans : List ShadowSpan) (n start : Nat) (validity : Validity) : List ShadowSpan :=
  if n > 0 then
    match spans.getLast? with
    | some last =>
      if last.validity = validity ∧ (validity = .invalid ∨ last.start + last.n = start) then
        spans.dropLast ++ [{ last with n := last.n + n }]
      else spans ++ [⟨n, start, validity⟩]
    | none => spans ++ [⟨n, start, validity⟩]
  else spans

namespace LineCacheShadow

/-- The first loop of `edit`, line_cache_shadow.rs:129-139: what is built, and the spans and
the line number where it stops.  There `line_num ≤ start`. -/
def editBefore (start : Nat) : List ShadowSpan → Nat → List ShadowSpan → List ShadowSpan × List ShadowSpan × Nat
  | [], lineNum, b => (b, [], lineNum)
  | span :: rest, lineNum, b =>
    if lineNum + span.n ≤ start then editBefore start rest (lineNum + span.n) (addSpan b span.n span.start span.validity)
    else (addSpan b (start - lineNum) span.start span.validity, span :: rest, lineNum)

/-- The second loop of `edit`, line_cache_shadow.rs:141-147. -/
def editAfter (stop : Nat) : List ShadowSpan → Nat → List ShadowSpan → List ShadowSpan
  | [], _, b => b
  | span :: rest, lineNum, b =>
    editAfter stop rest (lineNum + span.n)
      (if lineNum + span.n > stop then addSpan b (span.n - (stop - lineNum)) (span.start + (stop - lineNum)) span.validity else b)

/-- `LineCacheShadow::edit`, line_cache_shadow.rs:125-150. -/
def edit (s : LineCacheShadow) (start stop replace : Nat) : LineCacheShadow :=
  let (b, rest, lineNum) := editBefore start s.spans 0 []
  ⟨editAfter stop rest lineNum (addSpan b replace 0 .invalid), true⟩

/-- The first loop of `partial_invalidate`, line_cache_shadow.rs:153-164. -/
def isClean (start stop : Nat) (invalid : Validity) : List ShadowSpan → Nat → Bool
  | [], _ => true
  | span :: rest, lineNum =>
    if start < lineNum + span.n ∧ stop > lineNum ∧ span.validity.meets invalid = true then false
    else isClean start stop invalid rest (lineNum + span.n)

/-- What the second loop of `partial_invalidate` builds for a span,
line_cache_shadow.rs:168-186: before the range. -/
def invalidateBefore (start lineNum : Nat) (span : ShadowSpan) (b : List ShadowSpan) : List ShadowSpan :=
  if start > lineNum then addSpan b (min span.n (start - lineNum)) span.start span.validity else b

/-- Inside the range, line_cache_shadow.rs:172-180. -/
def invalidateInside (start stop : Nat) (invalid : Validity) (lineNum : Nat) (span : ShadowSpan) (b : List ShadowSpan) : List ShadowSpan :=
  let invalidStart := max start lineNum
  let invalidEnd := min stop (lineNum + span.n)
  if invalidEnd > invalidStart then
    addSpan b (invalidEnd - invalidStart) (span.start + (invalidStart - lineNum)) (span.validity.minus invalid)
  else b

/-- After the range, line_cache_shadow.rs:181-184. -/
def invalidateAfter (stop lineNum : Nat) (span : ShadowSpan) (b : List ShadowSpan) : List ShadowSpan :=
  if lineNum + span.n > stop then addSpan b (span.n - (stop - lineNum)) (span.start + (stop - lineNum)) span.validity else b

/-- The second loop of `partial_invalidate`, line_cache_shadow.rs:166-186. -/
def invalidateLoop (start stop : Nat) (invalid : Validity) : List ShadowSpan → Nat → List ShadowSpan → List ShadowSpan
  | [], _, b => b
  | span :: rest, lineNum, b =>
    invalidateLoop start stop invalid rest (lineNum + span.n)
      (invalidateAfter stop lineNum span (invalidateInside start stop invalid lineNum span (invalidateBefore start lineNum span b)))

/-- `LineCacheShadow::partial_invalidate`, line_cache_shadow.rs:152-189. -/
def partialInvalidate (s : LineCacheShadow) (start stop : Nat) (invalid : Validity) : LineCacheShadow :=
  if isClean start stop invalid s.spans 0 then s
  else ⟨invalidateLoop start stop invalid s.spans 0 [], true⟩

/-- `View::set_dirty`, view.rs:943-949, for a view of `height` lines. -/
def allDirty (height : Nat) : LineCacheShadow := ⟨addSpan [] height 0 .invalid, true⟩

end LineCacheShadow

/-- `PlanIterator`, line_cache_shadow.rs:74-81, 220-248, collected; the first argument bounds
the number of segments.  The lists are what is left of the spans, the numbers the lines at
which their first spans begin. -/
def planSegments : Nat → List ShadowSpan → Nat → RenderPlan → Nat → Option (List PlanSegment)
  | 0, _, _, _, _ => some []
  | _ + 1, [], _, _, _ => some []
  | _ + 1, _ :: _, _, [], _ => some []
  | fuel + 1, span :: spans, shadowLine, p :: plan, planLine => do
    let start := max shadowLine planLine
    let stop := min (shadowLine + span.n) (planLine + p.1)
    if stop < start then none
    else
      let seg : PlanSegment := ⟨start, span.start + (start - shadowLine), stop - start, span.validity, p.2⟩
      let spanDone := stop = shadowLine + span.n
      let planDone := stop = planLine + p.1
      let rest ← planSegments fuel (if spanDone then spans else span :: spans) (if spanDone then stop else shadowLine)
        (if planDone then plan else p :: plan) (if planDone then stop else planLine)
      return seg :: rest

namespace LineCacheShadow

/-- `iter_with_plan`, line_cache_shadow.rs:202-211. -/
def segments (s : LineCacheShadow) (plan : RenderPlan) : Option (List PlanSegment) :=
  planSegments (s.spans.length + plan.length) s.spans 0 plan 0

/-- `needs_render`, line_cache_shadow.rs:191-196. -/
def needsRender (s : LineCacheShadow) (plan : RenderPlan) : Option Bool :=
  if s.dirty then some true
  else do return (← s.segments plan).any fun seg => seg.tactic = .render && seg.validity ≠ .all

end LineCacheShadow

namespace RenderPlan

/-- `SCROLL_SLOP`, line_cache_shadow.rs:21. -/
def scrollSlop : Nat := 2

/-- `PRESERVE_EXTENT`, line_cache_shadow.rs:22. -/
def preserveExtent : Nat := 1000

/-- The start of `RenderPlan::create`, line_cache_shadow.rs:255-267: what comes before the
lines to render, and where they begin. -/
def before (first : Nat) : RenderPlan × Nat :=
  let spans : RenderPlan := if first > preserveExtent then [(first - preserveExtent, .discard)] else []
  let last := if first > preserveExtent then first - preserveExtent else 0
  if first > scrollSlop then
    let n := first - scrollSlop - last
    (spans ++ [(n, .preserve)], last + n)
  else (spans, last)

/-- The end of `RenderPlan::create`, line_cache_shadow.rs:271-277. -/
def after (total preserveEnd last : Nat) : RenderPlan :=
  let spans : RenderPlan := if preserveEnd > last then [(preserveEnd - last, .preserve)] else []
  let last := if preserveEnd > last then preserveEnd else last
  if total > last then spans ++ [(total - last, .discard)] else spans

/-- `RenderPlan::create`, line_cache_shadow.rs:254-279. -/
def create (total firstLine height : Nat) : Option RenderPlan :=
  let first := min firstLine total
  let (spans, last) := before first
  let renderEnd := min (first + height + scrollSlop) total
  if renderEnd < last then none
  else
    let preserveEnd := min (first + height + preserveExtent) total
    some (spans ++ [(renderEnd - last, .render)] ++ after total preserveEnd renderEnd)

/-- The first loop of `request_lines`, line_cache_shadow.rs:286-298. -/
def requestBefore (start : Nat) : RenderPlan → Nat → RenderPlan → RenderPlan × RenderPlan × Nat
  | [], lineNum, spans => (spans, [], lineNum)
  | span :: rest, lineNum, spans =>
    if lineNum + span.1 ≤ start then requestBefore start rest (lineNum + span.1) (spans ++ [span])
    else (if lineNum < start then spans ++ [(start - lineNum, span.2)] else spans, span :: rest, lineNum)

/-- The second loop of `request_lines`, line_cache_shadow.rs:300-306. -/
def requestAfter (stop : Nat) : RenderPlan → Nat → RenderPlan → RenderPlan
  | [], _, spans => spans
  | span :: rest, lineNum, spans =>
    requestAfter stop rest (lineNum + span.1) (if lineNum + span.1 > stop then spans ++ [(span.1 - (stop - lineNum), span.2)] else spans)

/-- `RenderPlan::request_lines`, line_cache_shadow.rs:282-308. -/
def requestLines (plan : RenderPlan) (start stop : Nat) : Option RenderPlan :=
  if stop < start then none
  else
    let (spans, rest, lineNum) := requestBefore start plan 0 []
    some (requestAfter stop rest lineNum (spans ++ [(stop - start, .render)]))

end RenderPlan

section

variable {T S : Type}

/-- The cursors in `encode_line`, view.rs:683-685: left out if there are none. -/
def encodeCursor (c : List Nat) : Option (List Nat) := if c.isEmpty then none else some c

/-- The lines of a segment with text and styles, view.rs:861-875. -/
def encodeLines (cur : List (ScreenLine T S)) (start n : Nat) : List (T × S × Option (List Nat)) :=
  ((cur.drop start).take n).map fun l => (l.text, l.styles, encodeCursor l.cursor)

/-- The cursors of the lines of a segment, view.rs:833-847. -/
def encodeCursors (cur : List (ScreenLine T S)) (start n : Nat) : List (Option (List Nat)) :=
  ((cur.drop start).take n).map fun l => encodeCursor l.cursor

/-- The operations for a segment that is valid in the front end, view.rs:820-852. -/
def copyOps (cur : List (ScreenLine T S)) (seg : PlanSegment) (lineNum : Nat) : List (UpdateOp T S) :=
  (if seg.theirs - lineNum > 0 then [.skip (seg.theirs - lineNum)] else []) ++
    [if seg.validity.cursor then .copy seg.n else .update (encodeCursors cur seg.ours seg.n)]

/-- The loop of `send_update_for_plan`, view.rs:796-883. -/
def updateLoop (cur : List (ScreenLine T S)) : List PlanSegment → List ShadowSpan → List (UpdateOp T S) → Nat →
    Option (List ShadowSpan × List (UpdateOp T S))
  | [], b, ops, _ => some (b, ops)
  | seg :: segs, b, ops, lineNum =>
    if seg.tactic = .discard then updateLoop cur segs (addSpan b seg.n 0 .invalid) (ops ++ [.invalidate seg.n]) lineNum
    else if seg.validity.text && seg.validity.styles then
      if seg.theirs < lineNum then none
      else updateLoop cur segs (addSpan b seg.n seg.ours seg.validity) (ops ++ copyOps cur seg lineNum) (seg.theirs + seg.n)
    else if seg.tactic = .preserve then updateLoop cur segs (addSpan b seg.n 0 .invalid) (ops ++ [.invalidate seg.n]) lineNum
    else if (encodeLines cur seg.ours seg.n).length ≠ seg.n then none
    else updateLoop cur segs (addSpan b seg.n seg.ours .all) (ops ++ [.insert (encodeLines cur seg.ours seg.n)]) lineNum

/-- `send_update_for_plan`, view.rs:745-892: the new shadow and what is sent. -/
def sendUpdate (cur : List (ScreenLine T S)) (s : LineCacheShadow) (plan : RenderPlan) : Option (LineCacheShadow × List (UpdateOp T S)) := do
  if ← s.needsRender plan then
    let (b, ops) ← updateLoop cur (← s.segments plan) [] [] 0
    return (⟨b, false⟩, ops)
  else return (s, [.copy cur.length])

/-- `render_if_dirty`, view.rs:906-921. -/
def renderIfDirty (cur : List (ScreenLine T S)) (s : LineCacheShadow) (firstLine height : Nat) : Option (LineCacheShadow × List (UpdateOp T S)) := do
  sendUpdate cur s (← RenderPlan.create cur.length firstLine height)

/-- `request_lines`, view.rs:924-938. -/
def viewRequestLines (cur : List (ScreenLine T S)) (s : LineCacheShadow) (firstLine height first last : Nat) :
    Option (LineCacheShadow × List (UpdateOp T S)) := do
  sendUpdate cur s (← (← RenderPlan.create cur.length firstLine height).requestLines first last)

end

end Xi
