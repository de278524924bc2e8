import Verif.Plugin.Comments

/-!
# Indentation in the plugin for syntax highlighting

Model of the part of `rust/syntect-plugin/src/main.rs` that indents lines, with the conventions of `Plugin/Comments.lean`.  A panic is `none`; so is an
error, as all callers `expect` there is none.
-/

namespace Xi

namespace Syntect

/-- The items of the configuration that matter for indentation. -/
structure IndentConfig where
  tabSize : Nat
  useSpaces : Bool

/-- `ScopedMetadata`: the marker for comments and the two patterns. -/
structure Metadata where
  lineComment : Option (List Char)
  increaseIndent : List Char → Bool
  decreaseIndent : List Char → Bool

/-- `get_metadata`, main.rs:256-265, as a function of the text of the line; `none` if there is no syntax. -/
abbrev Rules := List Char → Option Metadata

/-- `u8::is_ascii_whitespace`. -/
def asciiWhite (c : Char) : Bool := c = ' ' || c = '\t' || c = '\n' || c.toNat = 12 || c = '\r'

/-- `previous_nonblank_line`, main.rs:482-497. -/
def previousNonblank (lines : List (List Char)) : Nat → Option (Option Nat)
  | 0 => some none
  | n + 1 => do
    let text ← lines[n]?
    if !text.all asciiWhite then return some n
    else previousNonblank lines n

/-- `indent_level_of_line`, main.rs:499-507, of the text of the line. -/
def levelOf (cfg : IndentConfig) (line : List Char) : Nat := ((line.takeWhile isBlank).map (fun c => if c = ' ' then 1 else cfg.tabSize)).sum

/-- `indent_level_of_line`, main.rs:499-507. -/
def indentLevel (cfg : IndentConfig) (lines : List (List Char)) (n : Nat) : Nat := levelOf cfg ((lines[n]?).getD [])

/-- `n_spaces` and `n_tabs`, main.rs:752-763, as `set_indent` uses them; a tab size of 0 makes it divide by it. -/
def indentText (cfg : IndentConfig) (level : Nat) : Option (List Char) :=
  if cfg.useSpaces then some (List.replicate (min level 160) ' ')
  else if cfg.tabSize = 0 then none
  else some (List.replicate (min (level / cfg.tabSize) 40) '\t')

/-- `set_indent`, main.rs:412-433. -/
def setIndent (cfg : IndentConfig) (lines : List (List Char)) (builder : EditBuilder) (n level : Nat) : Option EditBuilder := do
  let start ← offsetOf lines n
  let line ← lines[n]?
  let len := (line.takeWhile isBlank).length
  let text ← indentText cfg level
  builder.replace start (start + len) text

/-- `test_increase`, main.rs:437-464. -/
def testIncrease (rules : Rules) (lines : List (List Char)) (n : Nat) : Option Bool := do
  match ← previousNonblank lines n with
  | none => return false
  | some prev =>
    let line ← lines[prev]?
    let metadata ← rules line
    match metadata.lineComment with
    | none => return metadata.increaseIndent line
    | some comment =>
      if (Lsp.trim comment).isPrefixOf (Lsp.trim line) then return false
      else return metadata.increaseIndent line

/-- `test_decrease`, main.rs:468-480. -/
def testDecrease (rules : Rules) (lines : List (List Char)) (n : Nat) : Option Bool := do
  if n = 0 then return false
  else
    let line ← lines[n]?
    let metadata ← rules line
    return metadata.decreaseIndent line

/-- The indentation of the last line before `n` that is not blank, main.rs:307-312 and 358-361. -/
def baseIndent (cfg : IndentConfig) (lines : List (List Char)) (n : Nat) : Option Nat := do
  match ← previousNonblank lines n with
  | none => return 0
  | some l => return indentLevel cfg lines l

/-- `base + increase - decrease`; `none` if it would be negative. -/
def finalLevel (base increase decrease : Nat) : Option Nat := if decrease ≤ base + increase then some (base + increase - decrease) else none

/-- The level that `autoindent_line`, main.rs:362-366, and `bulk_autoindent`, main.rs:319-323, find for a line from `base`. -/
def nextLevel (cfg : IndentConfig) (rules : Rules) (lines : List (List Char)) (base n : Nat) : Option Nat := do
  let increase ← testIncrease rules lines n
  let decrease ← testDecrease rules lines n
  finalLevel base (if increase then cfg.tabSize else 0) (if decrease then cfg.tabSize else 0)

/-- The level of line `n` in `bulk_autoindent`, main.rs:318-325. -/
def bulkLevel (cfg : IndentConfig) (rules : Rules) (lines : List (List Char)) (base n : Nat) : Option Nat :=
  if n > 0 then nextLevel cfg rules lines base n else some base

/-- The level with which `bulk_autoindent` begins, main.rs:307-313. -/
def bulkBase (cfg : IndentConfig) (lines : List (List Char)) (start : Nat) : Option Nat := if start > 0 then baseIndent cfg lines start else some 0

/-- The step of the loop of `bulk_autoindent`, main.rs:315-340. -/
def bulkStep (cfg : IndentConfig) (rules : Rules) (lines : List (List Char)) (st : EditBuilder × Nat) (n : Nat) : Option (EditBuilder × Nat) := do
  let base ← bulkLevel cfg rules lines st.2 n
  if base ≠ indentLevel cfg lines n then
    let builder ← setIndent cfg lines st.1 n base
    return (builder, base)
  else return (st.1, base)

/-- `bulk_autoindent`, main.rs:296-343, for the lines from `start` to `stop`, that one included. -/
def bulkAutoindent (cfg : IndentConfig) (rules : Rules) (lines : List (List Char)) (builder : EditBuilder) (start stop : Nat) : Option EditBuilder := do
  let base ← bulkBase cfg lines start
  let st ← (List.range' start (stop + 1 - start)).foldlM (bulkStep cfg rules lines) (builder, base)
  return st.1

/-- `autoindent_line`, main.rs:347-373, with its `debug_assert`. -/
def autoindentLine (cfg : IndentConfig) (rules : Rules) (lines : List (List Char)) (builder : EditBuilder) (n : Nat) : Option EditBuilder := do
  if n = 0 then none
  let base ← baseIndent cfg lines n
  let level ← nextLevel cfg rules lines base n
  if level ≠ indentLevel cfg lines n then setIndent cfg lines builder n level
  else return builder

/-- `check_indent_active_edit`, main.rs:377-410. -/
def checkActiveEdit (cfg : IndentConfig) (rules : Rules) (lines : List (List Char)) (builder : EditBuilder) (n : Nat) : Option EditBuilder := do
  let current := indentLevel cfg lines n
  if n = 0 || current = 0 then return builder
  else
    let justIncreased ← testIncrease rules lines n
    let decrease ← testDecrease rules lines n
    let level ← baseIndent cfg lines n
    if decrease then
      let level := if justIncreased then level else level - cfg.tabSize
      if level ≠ current then setIndent cfg lines builder n level
      else return builder
    else return builder

/-- `IndentationTask`, main.rs:71-75. -/
inductive IndentTask where
  | newline (line : Nat)
  | edit (line : Nat)
  | batch (start stop : Nat)

/-- One task of `indent_lines`, main.rs:232-242. -/
def indentTask (cfg : IndentConfig) (rules : Rules) (lines : List (List Char)) (builder : EditBuilder) : IndentTask → Option EditBuilder
  | .newline n => autoindentLine cfg rules lines builder n
  | .edit n => checkActiveEdit cfg rules lines builder n
  | .batch start stop => bulkAutoindent cfg rules lines builder start stop

/-- `indent_lines`, main.rs:229-251. -/
def indentLines (cfg : IndentConfig) (rules : Rules) (text : List Char) (tasks : List IndentTask) : Option (Option (Delta Char)) := do
  let builder ← tasks.foldlM (indentTask cfg rules (linesOf text)) (DeltaBuilder.new text.length)
  return (if builder.isEmpty then none else some builder.build)

/-- `reindent`, main.rs:509-518; an empty edit is sent too. -/
def reindent (cfg : IndentConfig) (rules : Rules) (text : List Char) (ranges : List (Nat × Nat)) : Option (Delta Char) := do
  let builder ← ranges.foldlM (fun builder (r : Nat × Nat) =>
    if r.2 = 0 then none else bulkAutoindent cfg rules (linesOf text) builder r.1 (r.2 - 1)) (DeltaBuilder.new text.length)
  return builder.build

/-- The kinds of edits for which lines are indented, main.rs:51-55. -/
inductive EditType where
  | newline
  | insert
  | other
deriving DecidableEq

/-- The part of `consider_indentation`, main.rs:268-294, for one inserted region of `len` characters at `offset` of the new text. -/
def considerRegion (text : List Char) (type : EditType) (offset len : Nat) : List IndentTask :=
  let line := (text.take offset).count '\n'
  match type with
  | .newline => [.newline (line + 1)]
  | .insert => if ((text.drop offset).take len).all asciiWhite then [] else [.edit line]
  | .other => [.batch line ((text.take (offset + len)).count '\n')]

end Syntect

end Xi
