import Verif.Plugin.Indent
import Verif.Spec.Comments

/-!
# Specification of indentation

How far each line is indented, from the last line before it that is not blank, and what a line looks like then.
-/

namespace Xi

namespace Syntect

/-- A character that a blank line may have. -/
def white (c : Char) : Bool := [' ', '\t', '\n', '\x0c', '\r'].contains c

/-- The last of the first `n` lines that is not blank. -/
def lastNonblank (lines : List (List Char)) (n : Nat) : Option (List Char) := ((lines.take n).filter (fun l => !l.all white)).getLast?

/-- The metadata say that the lines after `line` are indented, and it is no comment. -/
def opens (data : List Char → Metadata) (line : List Char) : Bool :=
  (data line).increaseIndent line &&
    match (data line).lineComment with
    | none => true
    | some comment => !(Lsp.trim comment).isPrefixOf (Lsp.trim line)

/-- The line before `n` asks for one level more. -/
def opened (data : List Char → Metadata) (lines : List (List Char)) (n : Nat) : Bool := (lastNonblank lines n).elim false (opens data)

/-- The metadata say that `line` itself has one level less. -/
def closes (data : List Char → Metadata) (line : List Char) : Bool := (data line).decreaseIndent line

/-- Columns up to the first character of a line that is no space and no tab. -/
def columns (tab : Nat) (line : List Char) : Nat := (line.takeWhile space).countP (· = ' ') + tab * (line.takeWhile space).countP (· = '\t')

/-- The columns of the line before `n`. -/
def before (tab : Nat) (lines : List (List Char)) (n : Nat) : Nat := (lastNonblank lines n).elim 0 (columns tab)

/-- The columns of line `n` are `level`, if the line it follows has `base`: one tab more after a line that opens, one less if it closes. -/
def Follows (tab : Nat) (data : List Char → Metadata) (lines : List (List Char)) (base n level : Nat) : Prop :=
  ∃ l, lines[n]? = some l ∧ level + (if closes data l then tab else 0) = base + (if opened data lines n then tab else 0)

/-- The columns for the lines from `start` to before `stop`, of which the one before `start` has `base`. -/
def Levels (tab : Nat) (data : List Char → Metadata) (lines : List (List Char)) (level : Nat → Nat) (base start : Nat) : Nat → Prop
  | 0 => True
  | k + 1 => (if start = 0 then level start = base else Follows tab data lines base start (level start)) ∧ Levels tab data lines level (level start) (start + 1) k

/-- What a task makes of its lines. -/
def TaskLevels (tab : Nat) (data : List Char → Metadata) (lines : List (List Char)) (level : Nat → Nat) : IndentTask → Prop
  | .newline n => Follows tab data lines (before tab lines n) n (level n)
  | .edit n => ∃ l, lines[n]? = some l ∧ level n =
      if n = 0 ∨ columns tab l = 0 ∨ closes data l = false then columns tab l
      else if opened data lines n then before tab lines n else before tab lines n - tab
  | .batch start stop => Levels tab data lines level (before tab lines start) start (stop + 1 - start)

/-- The lines of a task. -/
def taskRange : IndentTask → Nat × Nat
  | .newline n => (n, n + 1)
  | .edit n => (n, n + 1)
  | .batch start stop => (start, stop + 1)

/-- A line indented to `level` columns: nothing changes if it is already; else its blanks are replaced by spaces, at most 160, or by tabs, at most 40, and
nothing else changes. -/
def Indented (cfg : IndentConfig) (level : Nat) (line line' : List Char) : Prop :=
  if columns cfg.tabSize line = level then line' = line
  else if cfg.useSpaces then line' = List.replicate (min level 160) ' ' ++ line.dropWhile space
  else line' = List.replicate (min (level / cfg.tabSize) 40) '\t' ++ line.dropWhile space

/-- Columns that an indentation can have. -/
def Fits (cfg : IndentConfig) (level : Nat) : Prop := if cfg.useSpaces then level ≤ 160 else cfg.tabSize ∣ level ∧ level ≤ 40 * cfg.tabSize

/-- What the lines are about does not depend on their indentation. -/
def Unindented (data : List Char → Metadata) : Prop :=
  ∀ w w' l, (∀ c ∈ w, space c = true) → (∀ c ∈ w', space c = true) → opens data (w ++ l) = opens data (w' ++ l) ∧ closes data (w ++ l) = closes data (w' ++ l)

/-- What the lines become. -/
structure Reindented (cfg : IndentConfig) (level : Nat → Nat) (ranges : List (Nat × Nat)) (lines lines' : List (List Char)) : Prop where
  outside : ∀ n, rangeWith ranges n = none → lines'[n]? = lines[n]?
  inside : ∀ r ∈ ranges, ∀ n, r.1 ≤ n → n < r.2 → ∀ l, lines[n]? = some l → ∃ l', lines'[n]? = some l' ∧ Indented cfg (level n) l l'

end Syntect

end Xi
