import Verif.Core.LineOffset
import Verif.Spec.VisualLines

/-!
# What lines, columns and grapheme clusters are
-/

namespace Xi

/-- What is assumed about grapheme clusters (rules GB1 to GB5 of UAX #29, as far as newlines go):
the two ends of a text are boundaries, a character is never cut, there is a boundary after every
newline, and there is one before every carriage return and newline except that `\r\n` stays together. -/
structure Graphemes.Ok (g : Graphemes) : Prop where
  first : ∀ t, Utf8 t → g.boundary t 0 = true
  last : ∀ t, Utf8 t → g.boundary t t.length = true
  char : ∀ t k, Utf8 t → g.boundary t k = true → CharBoundary t k
  after : ∀ t k, Utf8 t → LineBoundary t k → g.boundary t k = true
  before : ∀ t k, Utf8 t → t[k]? = some newline → (k = 0 ∨ t[k - 1]? ≠ some 13) → g.boundary t k = true
  beforeCr : ∀ t k, Utf8 t → t[k]? = some 13 → g.boundary t k = true
  crlf : ∀ t k, Utf8 t → 0 < k → t[k]? = some newline → t[k - 1]? = some 13 → g.boundary t k = false

/-- `starts` are the places where the lines of `r` start, and `lo` computes with these lines. -/
structure IsLines (r : Rope) (lo : LineOffset) (starts : List Nat) : Prop where
  first : starts[0]? = some 0
  sorted : starts.Pairwise (· < ·)
  chars : ∀ s ∈ starts, CharBoundary r.text s
  line : ∀ o, CharBoundary r.text o → lo.lineOfOffset r o = some ((starts.filter (· ≤ o)).length - 1)
  offset : ∀ n s, starts[n]? = some s → lo.offsetOfLine r n = some s
  past : lo.offsetOfLine r starts.length = some r.text.length

/-- Lines beyond the last are at the end of the text. -/
def Clamps (r : Rope) (lo : LineOffset) (starts : List Nat) : Prop := ∀ n, starts.length ≤ n → lo.offsetOfLine r n = some r.text.length

/-- The starts of the lines that end in newlines. -/
def logicalStarts (t : List UInt8) : List Nat := (List.range (t.length + 1)).filter (fun k => k = 0 ∨ (0 < k ∧ t[k - 1]? = some newline))

/-- The starts of the visual lines: after newlines and at soft breaks. -/
def visualStarts (t : List UInt8) (b : List Bool) : List Nat :=
  (List.range (t.length + 1)).filter (fun k => k = 0 ∨ (0 < k ∧ t[k - 1]? = some newline) ∨ (0 < k ∧ b[k - 1]? = some true))

/-- `o` is on line `n`, which starts at `s`. -/
structure OnLine (starts : List Nat) (n s o : Nat) : Prop where
  start : starts[n]? = some s
  le : s ≤ o
  lt : ∀ e, starts[n + 1]? = some e → o < e

/-- Where line `n` ends: the start of the next line; for the last line, beyond the end of the text. -/
def lineLimit (starts : List Nat) (len n : Nat) : Nat := (starts[n + 1]?).getD (len + 1)

/-- `p` is the place of column `col` on line `n`: the last boundary between grapheme clusters that
is at most `col` bytes after the start of the line and comes before the next line. -/
def PlaceAt (g : Graphemes) (t : List UInt8) (starts : List Nat) (n col p : Nat) : Prop :=
  ∃ s, starts[n]? = some s ∧ IsPrev (fun k => g.boundary t k = true) (min (s + col + 1) (lineLimit starts t.length n)) (some p)

end Xi
