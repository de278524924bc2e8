import Verif.Lsp.Hover

/-!
# How a hover reads

The front end takes the text of a hover for Markdown.  Of Markdown there are the fenced code blocks of CommonMark (section 4.5)
that are not indented and made of backticks; all other rows are text.
-/

namespace Xi

namespace Lsp

/-- The rows of a text, without the newlines. -/
def rowsOf : List Char → List (List Char)
  | [] => [[]]
  | c :: cs =>
    if c = '\n' then [] :: rowsOf cs
    else match rowsOf cs with
      | [] => [[c]]
      | row :: rows => (c :: row) :: rows

/-- A row of text or a block of code. -/
inductive Block where
  | text (row : List Char)
  | code (language : List Char) (rows : List (List Char))
deriving DecidableEq

/-- The number of backticks a row starts with. -/
def ticks (row : List Char) : Nat := (row.takeWhile fun c => c == '`').length

/-- Such a row starts a code block. -/
def Opens (row : List Char) : Prop := 3 ≤ ticks row ∧ '`' ∉ row.drop (ticks row)

/-- Such a row ends a code block that was started with `n` backticks. -/
def Closes (n : Nat) (row : List Char) : Prop := n ≤ ticks row ∧ row.drop (ticks row) = []

instance (row : List Char) : Decidable (Opens row) := inferInstanceAs (Decidable (_ ∧ _))

instance (n : Nat) (row : List Char) : Decidable (Closes n row) := inferInstanceAs (Decidable (_ ∧ _))

/-- The blocks of a text; `inside` is the code block that has been started. -/
def readRows : (inside : Option (Nat × List Char × List (List Char))) → List (List Char) → List Block
  | none, [] => []
  | some (_, language, rows), [] => [.code language rows]
  | none, row :: rest =>
    if Opens row then readRows (some (ticks row, row.drop (ticks row), [])) rest else .text row :: readRows none rest
  | some (n, language, rows), row :: rest =>
    if Closes n row then .code language rows :: readRows none rest else readRows (some (n, language, rows ++ [row])) rest

/-- What a Markdown reader makes of a text. -/
def readMarkdown (text : List Char) : List Block := readRows none (rowsOf text)

/-- What the server means by a part of its answer. -/
def meant : MarkedString → List Block
  | .string text => (rowsOf text).map .text
  | .code language value => [.code language (rowsOf value)]

/-- A part of an answer that is no trouble: text does not start a code block, code does not end one, and the language is a word. -/
def Tame : MarkedString → Prop
  | .string text => ∀ row ∈ rowsOf text, ¬ Opens row
  | .code language value => '`' ∉ language ∧ '\n' ∉ language ∧ ∀ row ∈ rowsOf value, ¬ Closes 3 row

/-- The first position is not behind the second one. -/
def Position.Le (p q : Position) : Prop := p.line < q.line ∨ p.line = q.line ∧ p.character ≤ q.character

end Lsp

end Xi
