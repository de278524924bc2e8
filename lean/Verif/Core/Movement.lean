import Verif.Core.LineOffset
import Verif.Core.WordBoundaries

/-!
# Model of `rust/core-lib/src/movement.rs`

Numbers are natural numbers: what the code does about overflow (`saturating_add`) is not modelled;
a subtraction that underflows is a panic.
-/

namespace Xi

/-- `enum Movement`, movement.rs:26-61. -/
inductive Movement where
  | left
  | right
  | leftWord
  | rightWord
  | leftOfLine
  | rightOfLine
  | up
  | down
  | upPage
  | downPage
  | upExactPosition
  | downExactPosition
  | startOfParagraph
  | endOfParagraph
  | endOfParagraphKill
  | startOfDocument
  | endOfDocument
deriving DecidableEq

namespace Movement

/-- The active point of the selection, movement.rs:147-153. -/
def active (r : SelRegion) (moveUp modify : Bool) : Nat := if modify then r.stop else if moveUp then r.lo else r.hi

/-- `selection_position`, movement.rs:139-158. -/
def selectionPosition (r : SelRegion) (lo : LineOffset) (text : Rope) (moveUp modify : Bool) : Option (Nat × Nat) := do
  let p := active r moveUp modify
  let col ← match r.horiz with
    | some col => some col
    | none => (lo.offsetToLineCol text p).map (·.2)
  let line ← lo.lineOfOffset text p
  return (col, line)

/-- `vertical_motion`, movement.rs:67-92. -/
def verticalMotion (g : Graphemes) (r : SelRegion) (lo : LineOffset) (text : Rope) (lineDelta : Int) (modify : Bool) :
    Option (Nat × Option Nat) := do
  let (col, line) ← selectionPosition r lo text (lineDelta < 0) modify
  let nLines ← lo.lineOfOffset text text.len
  if lineDelta < 0 ∧ (-lineDelta).toNat > line then return (0, some col)
  else
    let line := if lineDelta < 0 then line - (-lineDelta).toNat else line + lineDelta.toNat
    if line > nLines then return (text.len, some col)
    else return (← lo.lineColToOffset g text line col, some col)

/-- The length of a line, movement.rs:106-107 and 117. -/
def lineLength (lo : LineOffset) (text : Rope) (line : Nat) : Option Nat := do
  let stop ← lo.offsetOfLine text (line + 1)
  let start ← lo.offsetOfLine text line
  if start ≤ stop then some (stop - start) else none

/-- The loop of `vertical_motion_exact_pos`, movement.rs:116-132: the line to go to. -/
def exactLoop (lo : LineOffset) (text : Rope) (moveUp : Bool) (col nLines initLine : Nat) : Nat → Nat → Option Nat
  | 0, _ => none
  | fuel + 1, line => do
    if (← lineLength lo text line) > col then return line
    else if line ≥ nLines ∨ (line = 0 ∧ moveUp) then return initLine
    else exactLoop lo text moveUp col nLines initLine fuel (if moveUp then line - 1 else line + 1)

/-- `line_length - 1` if the line is shorter than the column, movement.rs:114. -/
def exactCol (lineLen col : Nat) : Option Nat := if lineLen < col then (if lineLen = 0 then none else some (lineLen - 1)) else some col

/-- `vertical_motion_exact_pos`, movement.rs:96-135. -/
def verticalMotionExactPos (g : Graphemes) (r : SelRegion) (lo : LineOffset) (text : Rope) (moveUp modify : Bool) :
    Option (Nat × Option Nat) := do
  let (col, initLine) ← selectionPosition r lo text moveUp modify
  let nLines ← lo.lineOfOffset text text.len
  let len ← lineLength lo text initLine
  if moveUp ∧ initLine = 0 then return (← lo.lineColToOffset g text initLine col, some col)
  else
    let col ← exactCol len col
    let line ← exactLoop lo text moveUp col nLines initLine (nLines + 3) (if moveUp then initLine - 1 else initLine + 1)
    return (← lo.lineColToOffset g text line col, some col)

/-- `scroll_height`, movement.rs:166-168. -/
def scrollHeight (height : Nat) : Int := max ((height : Int) - 2) 1

/-- `Movement::RightOfLine`, movement.rs:221-233. -/
def rightOfLineFrom (g : Graphemes) (lo : LineOffset) (text : Rope) (p : Nat) : Option Nat := do
  let line ← lo.lineOfOffset text p
  let nextLineOffset ← lo.offsetOfLine text (line + 1)
  if line < (← lo.lineOfOffset text text.len) then return (← g.prevOffset text nextLineOffset).getD text.len
  else return text.len

/-- The end of a paragraph when a line ends after `p`, movement.rs:249-255. -/
def paragraphEnd (g : Graphemes) (text : Rope) (p next : Nat) (c : WordCursor) : Option Nat := do
  let (c, atLine) ← c.isBoundary linesMetric
  if atLine then return (← g.prevOffset text next).getD p
  else return if c.position = text.len then text.len else p

/-- `Movement::EndOfParagraph`, movement.rs:244-261. -/
def endOfParagraphFrom (g : Graphemes) (text : Rope) (p : Nat) : Option Nat := do
  let c ← Cursor.new text p
  match ← c.next linesMetric with
  | (c, some next) => paragraphEnd g text p next c
  | (_, none) => return text.len

/-- The place to kill to when a line ends after `p`, movement.rs:267-274. -/
def killEnd (g : Graphemes) (text : Rope) (p next : Nat) (c : WordCursor) : Option Nat := do
  let (_, atLine) ← c.isBoundary linesMetric
  if atLine then
    match ← g.prevOffset text next with
    | some eol => return if eol ≠ p then eol else next
    | none => return next
  else return next

/-- `Movement::EndOfParagraphKill`, movement.rs:262-277. -/
def endOfParagraphKillFrom (g : Graphemes) (text : Rope) (p : Nat) : Option Nat := do
  let c ← Cursor.new text p
  match ← c.next linesMetric with
  | (c, some next) => killEnd g text p next c
  | (_, none) => return p

/-- The offset and the column to remember, movement.rs:183-282. -/
def target (g : Graphemes) (m : Movement) (r : SelRegion) (lo : LineOffset) (height : Nat) (text : Rope) (modify : Bool) :
    Option (Nat × Option Nat) :=
  match m with
  | .left =>
    if r.isCaret || modify then do
      match ← g.prevOffset text r.stop with
      | some offset => return (offset, none)
      | none => return (0, r.horiz)
    else some (r.lo, none)
  | .right =>
    if r.isCaret || modify then do
      match ← g.nextOffset text r.stop with
      | some offset => return (offset, none)
      | none => return (r.stop, r.horiz)
    else some (r.hi, none)
  | .leftWord => do
    let (_, o) ← WordCursor.prevBoundary (← Cursor.new text r.stop)
    return (o.getD 0, none)
  | .rightWord => do
    let (_, o) ← WordCursor.nextBoundary (← Cursor.new text r.stop)
    return (o.getD text.len, none)
  | .leftOfLine => do
    let line ← lo.lineOfOffset text r.stop
    return (← lo.offsetOfLine text line, none)
  | .rightOfLine => do return (← rightOfLineFrom g lo text r.stop, none)
  | .up => verticalMotion g r lo text (-1) modify
  | .down => verticalMotion g r lo text 1 modify
  | .upExactPosition => verticalMotionExactPos g r lo text true modify
  | .downExactPosition => verticalMotionExactPos g r lo text false modify
  | .startOfParagraph => do
    let (_, o) ← (← Cursor.new text r.stop).prev linesMetric
    return (o.getD 0, none)
  | .endOfParagraph => do return (← endOfParagraphFrom g text r.stop, none)
  | .endOfParagraphKill => do return (← endOfParagraphKillFrom g text r.stop, none)
  | .upPage => verticalMotion g r lo text (-scrollHeight height) modify
  | .downPage => verticalMotion g r lo text (scrollHeight height) modify
  | .startOfDocument => some (0, none)
  | .endOfDocument => some (text.len, none)

/-- `region_movement`, movement.rs:175-284. -/
def regionMovement (g : Graphemes) (m : Movement) (r : SelRegion) (lo : LineOffset) (height : Nat) (text : Rope) (modify : Bool) :
    Option SelRegion := do
  let (offset, horiz) ← target g m r lo height text modify
  return { SelRegion.new (if modify then r.start else offset) offset with horiz := horiz }

/-- `selection_movement`, movement.rs:297-311. -/
def selectionMovement (g : Graphemes) (m : Movement) (s : Selection) (lo : LineOffset) (height : Nat) (text : Rope) (modify : Bool) :
    Option Selection :=
  s.foldlM (fun result r => do result.addRegion (← regionMovement g m r lo height text modify)) []

end Movement

end Xi
