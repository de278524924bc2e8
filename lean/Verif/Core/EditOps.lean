import Verif.Core.Movement
import Verif.Rope.Delta
import Verif.Rope.Find

/-!
# Model of `rust/core-lib/src/edit_ops.rs`

Inserted ropes are their bytes.  The functions return the edit; `none` is a panic.
-/

namespace Xi

/-- The part of `BufferItems` (core-lib/src/config.rs) that is used here. -/
structure EditConfig extends BackspaceConfig where
  lineEnding : List UInt8

namespace EditOps

/-- The edits under construction (delta.rs:579-582). -/
abbrev Builder := DeltaBuilder UInt8

/-- A loop over `l` that adds to the edits, and their completion. -/
def buildWith {β : Type} (base : Rope) (l : List β) (step : Builder → β → Option Builder) : Option (Delta UInt8) := do
  return (← l.foldlM step (DeltaBuilder.new base.len)).build

/-- `Interval::new` and `Builder::replace`. -/
def replaceIn (b : Builder) (start stop : Nat) (text : List UInt8) : Option Builder := do
  let iv ← Interval.new start stop
  b.replace iv.start iv.stop text

/-- `Interval::new` and `Builder::delete`. -/
def deleteIn (b : Builder) (start stop : Nat) : Option Builder := do
  let iv ← Interval.new start stop
  b.delete iv.start iv.stop

/-- `insert`, edit_ops.rs:37-46. -/
def insert (base : Rope) (regions : List SelRegion) (text : List UInt8) : Option (Delta UInt8) :=
  buildWith base regions (fun b region => replaceIn b region.lo region.hi text)

/-- `surround`, edit_ops.rs:48-70. -/
def surround (base : Rope) (regions : List SelRegion) (before after : List UInt8) : Option (Delta UInt8) :=
  buildWith base regions (fun b region => do
    let b ← replaceIn b region.lo region.lo before
    replaceIn b region.hi region.hi after)

/-- Insertion into a `BTreeSet`, in increasing order. -/
def setInsert {β : Type} [DecidableEq β] (lt : β → β → Bool) (x : β) : List β → List β
  | [] => [x]
  | y :: l => if x = y then y :: l else if lt x y then x :: y :: l else y :: setInsert lt x l

/-- The order of pairs. -/
def pairLt (a b : Nat × Nat) : Bool := decide (a.1 < b.1) || (a.1 == b.1 && decide (a.2 < b.2))

/-- Where the search for the end of the lines of a region starts, edit_ops.rs:81-89. -/
def lastLineStart (base : Rope) (region : SelRegion) (lineStart : Nat) : Option Nat :=
  if region.isCaret then some lineStart
  else do
    let (lastLine, _) ← LineOffset.logicalLines.offsetToLineCol base region.hi
    LineOffset.logicalLines.offsetOfLine base lastLine

/-- The lines to duplicate for one region, edit_ops.rs:78-94. -/
def duplicateStep (base : Rope) (set : List (Nat × Nat)) (region : SelRegion) : Option (List (Nat × Nat)) := do
  let (firstLine, _) ← LineOffset.logicalLines.offsetToLineCol base region.lo
  let lineStart ← LineOffset.logicalLines.offsetOfLine base firstLine
  let cursor ← Cursor.new base (← lastLineStart base region lineStart)
  match ← cursor.next linesMetric with
  | (_, some lineEnd) => return setInsert pairLt (lineStart, lineEnd) set
  | (_, none) => return set

/-- Inserting one duplicate, edit_ops.rs:96-105. -/
def duplicateInsert (base : Rope) (config : EditConfig) (b : Builder) (range : Nat × Nat) : Option Builder := do
  let b ← replaceIn b range.1 range.1 (← base.slice (.range range.1 range.2)).text
  if range.2 = base.len then replaceIn b range.1 range.1 config.lineEnding else return b

/-- `duplicate_line`, edit_ops.rs:72-108. -/
def duplicateLine (base : Rope) (regions : List SelRegion) (config : EditConfig) : Option (Delta UInt8) := do
  let toDuplicate ← regions.foldlM (duplicateStep base) []
  buildWith base toDuplicate (duplicateInsert base config)

/-- One region of `delete_backward`, edit_ops.rs:115-121. -/
def deleteBackwardStep (base : Rope) (config : EditConfig) (b : Builder) (region : SelRegion) : Option Builder := do
  let start ← Backspace.offsetForDeleteBackwards region base config.toBackspaceConfig
  let iv ← Interval.new start region.hi
  if iv.stop ≤ iv.start then return b else b.delete iv.start iv.stop

/-- `delete_backward`, edit_ops.rs:111-124. -/
def deleteBackward (base : Rope) (regions : List SelRegion) (config : EditConfig) : Option (Delta UInt8) :=
  buildWith base regions (deleteBackwardStep base config)

/-- One region of `delete_sel_regions`, edit_ops.rs:170-175. -/
def deleteStep (b : Builder) (region : SelRegion) : Option Builder := do
  let iv ← Interval.new region.lo region.hi
  if iv.stop ≤ iv.start then return b else b.delete iv.start iv.stop

/-- `delete_sel_regions`, edit_ops.rs:168-178. -/
def deleteSelRegions (base : Rope) (regions : List SelRegion) : Option (Delta UInt8) := buildWith base regions deleteStep

/-- One region of `extract_sel_regions`, edit_ops.rs:187-198. -/
def extractStep (base : Rope) (saved : Option (List UInt8)) (region : SelRegion) : Option (Option (List UInt8)) :=
  if region.isCaret then some saved
  else do
    let val ← base.sliceToCow (.interval (← Interval.new region.lo region.hi))
    match saved with
    | none => return some val
    | some s => return some (s ++ newline :: val)

/-- `extract_sel_regions`, edit_ops.rs:182-200. -/
def extractSelRegions (base : Rope) (regions : List SelRegion) : Option (Option (List UInt8)) := regions.foldlM (extractStep base) none

/-- The region to delete for one region, edit_ops.rs:149-154. -/
def movementRegion (g : Graphemes) (base : Rope) (lines : LineOffset) (movement : Movement) (height : Nat) (r : SelRegion) : Option SelRegion :=
  if r.isCaret then Movement.regionMovement g movement r lines height base true else some r

/-- The regions to delete, edit_ops.rs:147-155. -/
def deletions (g : Graphemes) (base : Rope) (regions : List SelRegion) (lines : LineOffset) (movement : Movement) (height : Nat) : Option Selection :=
  regions.foldlM (fun s r => do Selection.addRegion s (← movementRegion g base lines movement height r)) []

/-- `delete_by_movement`, edit_ops.rs:136-165. -/
def deleteByMovement (g : Graphemes) (base : Rope) (regions : List SelRegion) (lines : LineOffset) (movement : Movement) (height : Nat) (save : Bool) :
    Option (Delta UInt8 × Option (List UInt8)) := do
  let dels ← deletions g base regions lines movement height
  let killRing ← if save then (extractSelRegions base dels).map (fun saved => some (saved.getD [])) else some none
  return (← deleteSelRegions base dels, killRing)

/-- `insert_newline`, edit_ops.rs:202-204. -/
def insertNewline (base : Rope) (regions : List SelRegion) (config : EditConfig) : Option (Delta UInt8) := insert base regions config.lineEnding

/-- `n_spaces`, edit_ops.rs:434-438. -/
def nSpaces (n : Nat) : Option (List UInt8) := if n ≤ 32 then some (List.replicate n 32) else none

/-- `get_tab_text`, edit_ops.rs:427-432. -/
def getTabText (config : EditConfig) (tabSize : Nat) : Option (List UInt8) :=
  if config.translateTabsToSpaces then nSpaces tabSize else some [9]

/-- Inserting at the start of a line, edit_ops.rs:215-217 and 261-263. -/
def insertAtLine (g : Graphemes) (base : Rope) (text : List UInt8) (b : Builder) (line : Nat) : Option Builder := do
  let offset ← LineOffset.logicalLines.lineColToOffset g base line 0
  replaceIn b offset offset text

/-- The width of a tab at a column, edit_ops.rs:221-222; `none` is the division by zero. -/
def tabAt (config : EditConfig) (col : Nat) : Option Nat := if config.tabSize = 0 then none else some (config.tabSize - col % config.tabSize)

/-- One region of `insert_tab`, edit_ops.rs:210-229. -/
def insertTabStep (g : Graphemes) (base : Rope) (config : EditConfig) (constTabText : List UInt8) (b : Builder) (region : SelRegion) : Option Builder := do
  let (first, past) ← LineOffset.logicalLines.getLineRange base region
  if past - first > 1 then (List.range' first (past - first)).foldlM (insertAtLine g base constTabText) b
  else
    let (_, col) ← LineOffset.logicalLines.offsetToLineCol base region.start
    let tabText ← getTabText config (← tabAt config col)
    replaceIn b region.lo region.hi tabText

/-- `insert_tab`, edit_ops.rs:206-231. -/
def insertTab (g : Graphemes) (base : Rope) (regions : List SelRegion) (config : EditConfig) : Option (Delta UInt8) := do
  let constTabText ← getTabText config config.tabSize
  buildWith base regions (insertTabStep g base config constTabText)

/-- The order of numbers. -/
def natLt (a b : Nat) : Bool := decide (a < b)

/-- The lines of one region, edit_ops.rs:246-251. -/
def indentLinesStep (base : Rope) (lines : List Nat) (region : SelRegion) : Option (List Nat) := do
  let (first, past) ← LineOffset.logicalLines.getLineRange base region
  return (List.range' first (past - first)).foldl (fun l line => setInsert natLt line l) lines

/-- `indent`, edit_ops.rs:258-266. -/
def indent (g : Graphemes) (base : Rope) (lines : List Nat) (tabText : List UInt8) : Option (Delta UInt8) :=
  buildWith base lines (insertAtLine g base tabText)

/-- `char::is_whitespace`, as the standard library documents it: the Unicode property White_Space. -/
def isWhitespace (c : Char) : Bool :=
  (9 ≤ c.toNat && c.toNat ≤ 13) || [0x20, 0x85, 0xa0, 0x1680, 0x2028, 0x2029, 0x202f, 0x205f, 0x3000].contains c.toNat || (0x2000 ≤ c.toNat && c.toNat ≤ 0x200a)

/-- `str::find(|c| !c.is_whitespace())`, by the characters `cs` of the string. -/
def findNonWhitespace : List Char → Option Nat
  | [] => none
  | c :: cs => if isWhitespace c then (findNonWhitespace cs).map (· + (String.utf8EncodeChar c).length) else some 0

/-- One line of `outdent`, edit_ops.rs:270-282. -/
def outdentLine (g : Graphemes) (base : Rope) (tabText : List UInt8) (b : Builder) (line : Nat) : Option Builder := do
  let offset ← LineOffset.logicalLines.lineColToOffset g base line 0
  let tabOffset ← LineOffset.logicalLines.lineColToOffset g base line tabText.length
  let iv ← Interval.new offset tabOffset
  let leading ← base.sliceToCow (.range iv.start iv.stop)
  if leading = tabText then b.delete iv.start iv.stop
  else
    match findNonWhitespace (Find.chars leading) with
    | some firstCharCol =>
      let firstCharOffset ← LineOffset.logicalLines.lineColToOffset g base line firstCharCol
      deleteIn b offset firstCharOffset
    | none => return b

/-- `outdent`, edit_ops.rs:268-284. -/
def outdent (g : Graphemes) (base : Rope) (lines : List Nat) (tabText : List UInt8) : Option (Delta UInt8) :=
  buildWith base lines (outdentLine g base tabText)

/-- `modify_indent`, edit_ops.rs:238-256; `dirIn` is the direction. -/
def modifyIndent (g : Graphemes) (base : Rope) (regions : List SelRegion) (config : EditConfig) (dirIn : Bool) :
    Option (Delta UInt8) := do
  let tabText ← getTabText config config.tabSize
  let lines ← regions.foldlM (indentLinesStep base) []
  if dirIn then indent g base lines tabText else outdent g base lines tabText

/-- `last_selection_region`, edit_ops.rs:418-425. -/
def lastSelectionRegion (regions : List SelRegion) : Option SelRegion := regions.reverse.find? (fun r => !r.isCaret)

/-- `sel_region_to_interval_and_rope`, edit_ops.rs:412-416. -/
def regionText (base : Rope) (region : SelRegion) : Option (List UInt8) := do
  return (← base.subseq (← Interval.new region.lo region.hi)).text

/-- The variables of `transpose`, edit_ops.rs:287-290. -/
structure Transpose where
  builder : Builder
  last : Nat
  previous : Option (List UInt8)

/-- The three places around a caret, edit_ops.rs:301-308: `(start, middle, stop)`, changed at the
end of a line. -/
def transposePlaces (g : Graphemes) (base : Rope) (start middle stop : Nat) : Option (Nat × Nat × Nat) := do
  let line ← LineOffset.logicalLines.lineOfOffset base stop
  let endLineOffset ← LineOffset.logicalLines.offsetOfLine base line
  if (stop = middle ∨ stop = endLineOffset) ∧ stop ≠ base.len then
    return ((← g.prevOffset base start).getD 0, start, start + 1)
  else return (start, middle, stop)

/-- Swapping, edit_ops.rs:310-315. -/
def transposeSwap (base : Rope) (st : Transpose) (start middle stop : Nat) : Option Transpose := do
  let _ ← Interval.new start stop
  let before ← base.sliceToCow (.range start middle)
  let after ← base.sliceToCow (.range middle stop)
  return { st with builder := ← st.builder.replace start stop (after ++ before), last := stop }

/-- A caret in `transpose`, edit_ops.rs:293-316. -/
def transposeCaret (g : Graphemes) (base : Rope) (st : Transpose) (middle : Nat) : Option Transpose := do
  let start := (← g.prevOffset base middle).getD 0
  let stop := (← g.nextOffset base middle).getD middle
  if st.last ≤ start then
    let (start, middle, stop) ← transposePlaces g base start middle stop
    transposeSwap base st start middle stop
  else return st

/-- One region of `transpose`, edit_ops.rs:292-322. -/
def transposeStep (g : Graphemes) (base : Rope) (st : Transpose) (region : SelRegion) : Option Transpose :=
  if region.isCaret then transposeCaret g base st region.stop
  else
    match st.previous with
    | none => some st
    | some previous => do
      let text ← regionText base region
      return { st with builder := ← st.builder.replace region.lo region.hi previous, previous := some text }

/-- The text of the last region that is not a caret, edit_ops.rs:289-290. -/
def transposeFirst (base : Rope) (regions : List SelRegion) : Option (Option (List UInt8)) :=
  match lastSelectionRegion regions with
  | none => some none
  | some region => (regionText base region).map some

/-- `transpose`, edit_ops.rs:286-325. -/
def transpose (g : Graphemes) (base : Rope) (regions : List SelRegion) : Option (Delta UInt8) := do
  let st ← regions.foldlM (transposeStep g base) ⟨DeltaBuilder.new base.len, 0, ← transposeFirst base regions⟩
  return st.builder.build

/-- One region of `transform_text`, edit_ops.rs:334-338. -/
def transformStep (f : List UInt8 → List UInt8) (base : Rope) (b : Builder) (region : SelRegion) : Option Builder := do
  let iv ← Interval.new region.lo region.hi
  let selected ← base.sliceToCow (.interval iv)
  b.replace iv.start iv.stop (f selected)

/-- `transform_text`, edit_ops.rs:327-341. -/
def transformText (f : List UInt8 → List UInt8) (base : Rope) (regions : List SelRegion) : Option (Delta UInt8) :=
  buildWith base regions (transformStep f base)

/-- The sign and the digits, for `parseI128`. -/
def signOf : List UInt8 → Bool × List UInt8
  | [] => (false, [])
  | d :: rest => if d = 45 then (true, rest) else if d = 43 then (false, rest) else (false, d :: rest)

/-- `str::parse::<i128>` of the standard library: an optional sign and decimal digits, in range. -/
def parseI128 (s : List UInt8) : Option Int :=
  if (signOf s).2 = [] ∨ ¬ (signOf s).2.all (fun d => 48 ≤ d && d ≤ 57) then none
  else
    let m : Nat := (signOf s).2.foldl (fun acc d => acc * 10 + (d.toNat - 48)) 0
    let n : Int := if (signOf s).1 then -(m : Int) else m
    if -(2 ^ 127) ≤ n ∧ n < 2 ^ 127 then some n else none

/-- `i128::to_string`. -/
def showInt (n : Int) : List UInt8 := (if n < 0 then [45] else []) ++ (Nat.toDigits 10 n.natAbs).flatMap String.utf8EncodeChar

/-- The start of the number, edit_ops.rs:365-368. -/
def numberStart (base : Rope) (start : Nat) : Option Nat :=
  if start = 0 then some start
  else do
    if (← base.byteAt (start - 1)) = 45 then return start - 1 else return start

/-- One region of `change_number`, edit_ops.rs:361-375. -/
def changeNumberStep (f : Int → Option Int) (base : Rope) (b : Builder) (region : SelRegion) : Option Builder := do
  let (_, start, stop) ← WordCursor.selectWord (← Cursor.new base region.stop)
  let start ← numberStart base start
  let word ← base.sliceToCow (.range start stop)
  match (parseI128 word).bind f with
  | some number => replaceIn b start stop (showInt number)
  | none => return b

/-- `change_number`, edit_ops.rs:355-378. -/
def changeNumber (f : Int → Option Int) (base : Rope) (regions : List SelRegion) : Option (Delta UInt8) :=
  buildWith base regions (changeNumberStep f base)

/-- One word of `capitalize_text`, edit_ops.rs:393-401; `upper` and `lower` are `str::to_uppercase` and
`str::to_lowercase`. -/
def capitalizeWord (upper lower : List UInt8 → List UInt8) (base : Rope) (b : Builder) (start stop : Nat) : Option Builder :=
  if start < stop then do
    let word ← base.sliceToCow (.range start stop)
    if isCharBoundary word 1 then b.replace start stop (upper (word.take 1) ++ lower (word.drop 1)) else none
  else some b

/-- The loop over the words of a region, edit_ops.rs:389-406. -/
def capitalizeLoop (upper lower : List UInt8 → List UInt8) (base : Rope) (hi : Nat) : Nat → Builder → WordCursor → Option Builder
  | 0, _, _ => none
  | fuel + 1, b, c => do
    let (c, start, stop) ← WordCursor.selectWord c
    let b ← capitalizeWord upper lower base b start stop
    let (c, next) ← WordCursor.nextBoundary c
    if next.isNone ∨ stop > hi then return b else capitalizeLoop upper lower base hi fuel b c

/-- One region of `capitalize_text`, edit_ops.rs:385-407. -/
def capitalizeStep (upper lower : List UInt8 → List UInt8) (base : Rope) (st : Builder × Selection) (region : SelRegion) :
    Option (Builder × Selection) := do
  let sel ← st.2.addRegion (SelRegion.new region.hi region.hi)
  let c ← Cursor.new base region.lo
  let b ← capitalizeLoop upper lower base region.hi (base.len + 2) st.1 c
  return (b, sel)

/-- `capitalize_text`, edit_ops.rs:380-410. -/
def capitalizeText (upper lower : List UInt8 → List UInt8) (base : Rope) (regions : List SelRegion) : Option (Delta UInt8 × Selection) := do
  let (b, sel) ← regions.foldlM (capitalizeStep upper lower base) (DeltaBuilder.new base.len, [])
  return (b.build, sel)

end EditOps

end Xi
