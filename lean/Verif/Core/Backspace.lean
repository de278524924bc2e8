import Verif.Core.Selection
import Verif.Rope.Lines
import Verif.Rope.Codepoint
import Verif.Unicode.Emoji

/-!
# Model of `rust/core-lib/src/backspace.rs` and of the columns in `rust/core-lib/src/line_offset.rs`

The counters are of type `i32` in the code and are integers here: a run of more than 2³¹
characters is out of scope.
-/

namespace Xi

open Unicode

/-- `LineOffset::offset_to_line_col` of `LogicalLines`, line_offset.rs:49-52; `none` also if the
subtraction underflows. -/
def logicalLineCol (text : Rope) (offset : Nat) : Option (Nat × Nat) := do
  let line ← text.lineOfOffset offset
  let start ← text.offsetOfLine line
  if start ≤ offset then some (line, offset - start) else none

/-- The part of `BufferItems` (core-lib/src/config.rs) that is used here. -/
structure BackspaceConfig where
  tabSize : Nat
  translateTabsToSpaces : Bool
  useTabStops : Bool

namespace Backspace

/-- `enum State`, backspace.rs:41-56. -/
inductive State where
  | start
  | lf
  | beforeKeycap
  | beforeVsAndKeycap
  | beforeEmojiModifier
  | beforeVSAndEmojiModifier
  | beforeVS
  | beforeEmoji
  | beforeZwj
  | beforeVSAndZWJ
  | oddNumberedRIS
  | evenNumberedRIS
  | inTagSequence
  | finished
  deriving DecidableEq, Repr

/-- The variables of the loop, backspace.rs:57-61. -/
structure Scan where
  state : State
  deleteCount : Int
  lastSeenVs : Int

/-- One turn of the loop, backspace.rs:69-203. -/
def scanStep (s : Scan) (ch : Char) : Scan :=
  match s.state with
  | .start =>
    if ch = '\n' then ⟨.lf, 1, s.lastSeenVs⟩
    else if isVariationSelector ch then ⟨.beforeVS, 1, s.lastSeenVs⟩
    else if isRegionalIndicatorSymbol ch then ⟨.oddNumberedRIS, 1, s.lastSeenVs⟩
    else if isEmojiModifier ch then ⟨.beforeEmojiModifier, 1, s.lastSeenVs⟩
    else if isEmojiCombiningEnclosingKeycap ch then ⟨.beforeKeycap, 1, s.lastSeenVs⟩
    else if isEmoji ch then ⟨.beforeEmoji, 1, s.lastSeenVs⟩
    else if isEmojiCancelTag ch then ⟨.inTagSequence, 1, s.lastSeenVs⟩
    else ⟨.finished, 1, s.lastSeenVs⟩
  | .lf => if ch = '\r' then ⟨.finished, s.deleteCount + 1, s.lastSeenVs⟩ else ⟨.finished, s.deleteCount, s.lastSeenVs⟩
  | .oddNumberedRIS =>
    if isRegionalIndicatorSymbol ch then ⟨.evenNumberedRIS, s.deleteCount + 1, s.lastSeenVs⟩
    else ⟨.finished, s.deleteCount, s.lastSeenVs⟩
  | .evenNumberedRIS =>
    if isRegionalIndicatorSymbol ch then ⟨.oddNumberedRIS, s.deleteCount - 1, s.lastSeenVs⟩
    else ⟨.finished, s.deleteCount, s.lastSeenVs⟩
  | .beforeKeycap =>
    if isVariationSelector ch then ⟨.beforeVsAndKeycap, s.deleteCount, 1⟩
    else if isKeycapBase ch then ⟨.finished, s.deleteCount + 1, s.lastSeenVs⟩
    else ⟨.finished, s.deleteCount, s.lastSeenVs⟩
  | .beforeVsAndKeycap =>
    if isKeycapBase ch then ⟨.finished, s.deleteCount + (s.lastSeenVs + 1), s.lastSeenVs⟩
    else ⟨.finished, s.deleteCount, s.lastSeenVs⟩
  | .beforeEmojiModifier =>
    if isVariationSelector ch then ⟨.beforeVSAndEmojiModifier, s.deleteCount, 1⟩
    else if isEmojiModifierBase ch then ⟨.finished, s.deleteCount + 1, s.lastSeenVs⟩
    else ⟨.finished, s.deleteCount, s.lastSeenVs⟩
  | .beforeVSAndEmojiModifier =>
    if isEmojiModifierBase ch then ⟨.finished, s.deleteCount + (s.lastSeenVs + 1), s.lastSeenVs⟩
    else ⟨.finished, s.deleteCount, s.lastSeenVs⟩
  | .beforeVS =>
    if isEmoji ch then ⟨.beforeEmoji, s.deleteCount + 1, s.lastSeenVs⟩
    else if isVariationSelector ch then ⟨.finished, s.deleteCount, s.lastSeenVs⟩
    else ⟨.finished, s.deleteCount + 1, s.lastSeenVs⟩
  | .beforeEmoji => if isZwj ch then ⟨.beforeZwj, s.deleteCount, s.lastSeenVs⟩ else ⟨.finished, s.deleteCount, s.lastSeenVs⟩
  | .beforeZwj =>
    if isEmoji ch then
      if isEmojiModifier ch then ⟨.beforeEmojiModifier, s.deleteCount + 2, s.lastSeenVs⟩
      else ⟨.beforeEmoji, s.deleteCount + 2, s.lastSeenVs⟩
    else if isVariationSelector ch then ⟨.beforeVSAndZWJ, s.deleteCount, 1⟩
    else ⟨.finished, s.deleteCount, s.lastSeenVs⟩
  | .beforeVSAndZWJ =>
    if isEmoji ch then ⟨.beforeEmoji, s.deleteCount + (s.lastSeenVs + 2), 0⟩
    else ⟨.finished, s.deleteCount, s.lastSeenVs⟩
  | .inTagSequence =>
    if isTagSpecChar ch then ⟨.inTagSequence, s.deleteCount + 1, s.lastSeenVs⟩
    else if isEmoji ch then ⟨.finished, s.deleteCount + 1, s.lastSeenVs⟩
    else ⟨.finished, 1, s.lastSeenVs⟩
  | .finished => s

/-- The loop, backspace.rs:63-204. -/
def scanLoop (text : Rope) : Nat → Scan → Nat → Option Scan
  | 0, _, _ => none
  | fuel + 1, s, tmpOffset =>
    if s.state ≠ .finished ∧ 0 < tmpOffset then do
      let cursor ← Cursor.new text tmpOffset
      let (_, codePoint) ← cursor.prevCodepoint
      let tmpOffset := (← text.prevCodepointOffset tmpOffset).getD 0
      scanLoop text fuel (scanStep s (codePoint.getD '0')) tmpOffset
    else some s

/-- Going back over the characters to delete, backspace.rs:207-210. -/
def moveBack (text : Rope) : Nat → Nat → Option Nat
  | 0, start => some start
  | count + 1, start => do
    let start := (← text.prevCodepointOffset start).getD 0
    moveBack text count start

/-- `(tab_start..region.start).all(|i| text.byte_at(i) == b' ')`, backspace.rs:36; the number of
bytes to look at and the first offset. -/
def allSpaces (text : Rope) : Nat → Nat → Option Bool
  | 0, _ => some true
  | n + 1, i => do
    if (← text.byteAt i) = 32 then allSpaces text n (i + 1) else return false

/-- The number of spaces up to the tab stop before, backspace.rs:31-33; `none` if `tab_size` is
zero. -/
def tabWidth (config : BackspaceConfig) (col : Nat) : Option Nat :=
  if config.tabSize = 0 then none
  else if col % config.tabSize = 0 then some config.tabSize else some (col % config.tabSize)

/-- `offset_for_delete_backwards`, backspace.rs:24-214. -/
def offsetForDeleteBackwards (region : SelRegion) (text : Rope) (config : BackspaceConfig) : Option Nat :=
  if !region.isCaret then some region.lo
  else do
    let (_, c) ← logicalLineCol text region.start
    let tabSize ← tabWidth config c
    let tabStart := region.start - tabSize
    let precededBySpaces ← if 0 < region.start then allSpaces text (region.start - tabStart) tabStart else some false
    if precededBySpaces && config.translateTabsToSpaces && config.useTabStops then return tabStart
    else
      let s ← scanLoop text (text.len + 1) ⟨.start, 0, 0⟩ region.stop
      moveBack text s.deleteCount.toNat region.stop

end Backspace

end Xi
