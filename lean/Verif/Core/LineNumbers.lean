import Verif.Core.LineCache
import Verif.Spec.LineNumbers

/-!
# Model of the line numbers in `send_update_for_plan` (rust/core-lib/src/view.rs)

`Verif/Core/LineCache.lean` with numbers.  The lines of the view are a list as there;
`real` says of the text of a line whether it begins a logical line.  That what the code
computes from the text and the breaks is `logicalAt` and `lineNum` is `C102_text`.
-/

namespace Xi

variable {T S : Type} (real : T → Bool) (cur : List (ScreenLine T S))

/-- `text.line_of_offset(self.offset_of_line(text, i))`, view.rs:824-825: the logical line
that the visual line `i` is part of, from 0 on. -/
def logicalAt (i : Nat) : Nat := (cur.take (i + 1)).countP (fun l => real l.text) - 1

/-- `VisualLine::line_num` of line `i`, linewrap.rs:617: only if it comes after a hard break;
from 1 on (linewrap.rs:194). -/
def lineNum (i : Nat) : Option Nat := if cur[i]?.any (fun l => real l.text) then some (logicalAt real cur i + 1) else none

/-- The numbers of the lines from `start` on (view.rs:686-688). -/
def lineNums (start n : Nat) : List (Option Nat) := (List.range n).map fun i => lineNum real cur (start + i)

/-- The operations for a segment that is valid in the front end, view.rs:820-852. -/
def copyOpsNum (seg : PlanSegment) (oldLine : Nat) : List (NumOp T S) :=
  (if seg.theirs - oldLine > 0 then [.skip (seg.theirs - oldLine)] else []) ++
    [if seg.validity.cursor then .copy seg.n (logicalAt real cur seg.ours + 1)
      else .update ((encodeCursors cur seg.ours seg.n).zip (lineNums real cur seg.ours seg.n))
        (if logicalAt real cur seg.ours = 0 then none else some (logicalAt real cur seg.ours + 1))]

/-- The loop of `send_update_for_plan`, view.rs:796-883. -/
def updateLoopNum : List PlanSegment → List ShadowSpan → List (NumOp T S) → Nat → Option (List ShadowSpan × List (NumOp T S))
  | [], b, ops, _ => some (b, ops)
  | seg :: segs, b, ops, oldLine =>
    if seg.tactic = .discard then updateLoopNum segs (addSpan b seg.n 0 .invalid) (ops ++ [.invalidate seg.n]) oldLine
    else if seg.validity.text && seg.validity.styles then
      if seg.theirs < oldLine then none
      else updateLoopNum segs (addSpan b seg.n seg.ours seg.validity) (ops ++ copyOpsNum real cur seg oldLine) (seg.theirs + seg.n)
    else if seg.tactic = .preserve then updateLoopNum segs (addSpan b seg.n 0 .invalid) (ops ++ [.invalidate seg.n]) oldLine
    else if (encodeLines cur seg.ours seg.n).length ≠ seg.n then none
    else updateLoopNum segs (addSpan b seg.n seg.ours .all)
      (ops ++ [.insert ((encodeLines cur seg.ours seg.n).zip (lineNums real cur seg.ours seg.n))]) oldLine

/-- `send_update_for_plan`, view.rs:745-892: the new shadow and what is sent.  If there is
nothing to render, all lines are copied and the first has number 1 (view.rs:770-776). -/
def sendNumbered (s : LineCacheShadow) (plan : RenderPlan) : Option (LineCacheShadow × List (NumOp T S)) := do
  if ← s.needsRender plan then
    let (b, ops) ← updateLoopNum real cur (← s.segments plan) [] [] 0
    return (⟨b, false⟩, ops)
  else return (s, [.copy cur.length 1])

/-- The plan for a rendering (`render_if_dirty`, view.rs:906-921), or, with a request, for
lines that the front end asks for (`request_lines`, view.rs:924-938). -/
def planFor (total firstLine height : Nat) (request : Option (Nat × Nat)) : Option RenderPlan := do
  let plan ← RenderPlan.create total firstLine height
  match request with
  | none => return plan
  | some (a, b) => plan.requestLines a b

end Xi
