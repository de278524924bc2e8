import Verif.Plugin.Comments
import Verif.Core.EditOps

/-!
# The sample plugin

Model of `rust/sample-plugin/src/main.rs`.  Texts are characters and offsets count them, where the code counts bytes.  The cache of the document is
right (C42), so that `get_line`, `offset_of_line` and `line_of_offset` give what the text says and fail only beyond its end.
-/

namespace Xi

namespace SamplePlugin

open Syntect (linesOf offsetOf)

/-- `View::line_of_offset`; `none` is an error. -/
def lineOfOffset (text : List Char) (offset : Nat) : Option Nat :=
  if offset ≤ text.length then some ((text.take offset).count '\n') else none

/-- The loop over the characters of the line, main.rs:84-94, which ends with `word_start`; `cur` is `cur_utf8_ix`. -/
def scan (lineStart endOffset : Nat) : List Char → Nat → Nat → Nat
  | [], _, wordStart => wordStart
  | c :: cs, cur, wordStart =>
    let wordStart := if EditOps.isWhitespace c then cur else wordStart
    if lineStart + (cur + 1) = endOffset then wordStart else scan lineStart endOffset cs (cur + 1) wordStart

/-- `SamplePlugin::capitalize_word`, main.rs:77-103: `none` is a panic, `some none` an error and otherwise there is the edit that is sent.
`upper` is `char::to_uppercase`; `str::to_uppercase` maps it over the characters. -/
def capitalizeWord (upper : Char → List Char) (text : List Char) (endOffset : Nat) : Option (Option (Delta Char)) :=
  match lineOfOffset text endOffset with
  | none => some none
  | some lineNb =>
    match offsetOf (linesOf text) lineNb, (linesOf text)[lineNb]? with
    | some lineStart, some line => do
      let wordStart := scan lineStart endOffset line 0 0
      let word ← slice line wordStart (endOffset - lineStart)
      let builder ← (DeltaBuilder.new text.length).replace (lineStart + wordStart) endOffset (word.flatMap upper)
      return some builder.build
    | _, _ => some none

/-- `SamplePlugin::update`, main.rs:56-72; `text` is the text after the edit `delta`, and the result is the edit that is sent, if there is one. -/
def update (upper : Char → List Char) (text : List Char) : Option (Delta Char) → Option (Option (Delta Char))
  | none => some none
  | some delta =>
    let iv := delta.summary.1
    let inserted := (delta.asSimpleInsert).getD []
    if inserted = ['!'] then capitalizeWord upper text iv.2 else some none

end SamplePlugin

end Xi
