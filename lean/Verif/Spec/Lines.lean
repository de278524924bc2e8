import Verif.Rope.Str

/-!
# The lines of a text
-/

namespace Xi

/-- `ls` are the raw lines of `s`: together they are `s`; each is not empty and
has a newline at most at its end; and all but the last end with a newline. -/
structure IsRawLines (ls : List (List UInt8)) (s : List UInt8) : Prop where
  text : ls.flatten = s
  nonempty : ∀ l ∈ ls, l ≠ []
  inner : ∀ l ∈ ls, newline ∉ l.dropLast
  ended : ∀ l ∈ ls.dropLast, l.getLast? = some newline

/-- `line` is `raw` without its line ending (`\n` or `\r\n`), if it has one. -/
def IsLineOf (line raw : List UInt8) : Prop :=
  raw = line ++ [13, newline] ∨ (raw = line ++ [newline] ∧ line.getLast? ≠ some 13) ∨
    (raw = line ∧ raw.getLast? ≠ some newline)

/-- A line starts at `i`, after a newline. -/
def LineBoundary (s : List UInt8) (i : Nat) : Prop := 0 < i ∧ s[i - 1]? = some newline

end Xi
