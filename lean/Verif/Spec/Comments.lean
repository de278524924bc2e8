import Verif.Plugin.Comments

/-!
# Specification of commenting out lines

Which lines a text has, and what becomes of each line when the lines of a range are commented out or their markers are taken away.
-/

namespace Xi

namespace Syntect

/-- Lines of a text: each but the last ends with its only newline, the last has none. -/
def IsLines : List (List Char) → Prop
  | [] => False
  | [l] => '\n' ∉ l
  | l :: ls => (∃ b, l = b ++ ['\n'] ∧ '\n' ∉ b) ∧ IsLines ls

/-- Ranges of lines that come one after the other, are not empty and end within `n` lines. -/
def Separated (n : Nat) : Nat → List (Nat × Nat) → Prop
  | lo, [] => lo ≤ n
  | lo, r :: rs => lo ≤ r.1 ∧ r.1 < r.2 ∧ Separated n r.2 rs

/-- A line of a comment: nothing but blanks before the marker, or nothing but the marker. -/
def IsComment (marker line : List Char) : Prop := marker <+: Lsp.trim line ∨ Lsp.trim marker = Lsp.trim line

instance (marker line : List Char) : Decidable (IsComment marker line) := inferInstanceAs (Decidable (_ ∨ _))

/-- A space or a tab. -/
def space (c : Char) : Bool := [' ', '\t'].contains c

/-- How many spaces and tabs are before the first other character of a line; none if there is no other. -/
def margin (line : List Char) : Nat := if line.all space then 0 else (line.takeWhile space).length

/-- `k` is the least margin of the lines `ls`. -/
def LeastMargin (ls : List (List Char)) (k : Nat) : Prop := (∀ l ∈ ls, k ≤ margin l) ∧ ∃ l ∈ ls, margin l = k

/-- The lines of a range. -/
def within (lines : List (List Char)) (r : Nat × Nat) : List (List Char) := (lines.take r.2).drop r.1

/-- A marker is put into a line at column `k`. -/
def marked (k : Nat) (marker line : List Char) : List Char := line.take k ++ marker ++ line.drop k

/-- The range that has line `n`. -/
def rangeWith (ranges : List (Nat × Nat)) (n : Nat) : Option (Nat × Nat) := ranges.find? (fun r => r.1 ≤ n && n < r.2)

/-- The text after an edit, if there is one. -/
def afterEdit (text : List Char) : Option (Delta Char) → Option (List Char)
  | none => some text
  | some d => d.apply text

/-- How a marker is taken away from a line: the first one goes; a line that is a marker without its blanks loses as many characters from its start. -/
def Unmarked (marker line line' : List Char) : Prop :=
  (∃ w rest, line = w ++ marker ++ rest ∧ line' = w ++ rest ∧ ∀ j, j < w.length → ¬ marker <+: line.drop j) ∨
  (¬ marker <:+: line ∧ Lsp.trim line = Lsp.trim marker ∧ line' = line.drop (Lsp.trim marker).length) ∨
  (¬ marker <:+: line ∧ Lsp.trim line ≠ Lsp.trim marker ∧ line' = line)

/-- What becomes of the lines: those of no range, and those of a range without a marker, stay; a range whose first line is no comment is commented out at
its least margin, but for lines that are comments; from the lines of any other range the markers are taken away. -/
structure Toggled (comment : Nat → Option (List Char)) (ranges : List (Nat × Nat)) (lines lines' : List (List Char)) : Prop where
  outside : ∀ n, rangeWith ranges n = none → lines'[n]? = lines[n]?
  unknown : ∀ r ∈ ranges, comment r.1 = none → ∀ n, r.1 ≤ n → n < r.2 → lines'[n]? = lines[n]?
  insert : ∀ r ∈ ranges, ∀ marker, comment r.1 = some marker → (∀ f, lines[r.1]? = some f → ¬ IsComment marker f) →
    ∃ k, LeastMargin (within lines r) k ∧
      ∀ n, r.1 ≤ n → n < r.2 → ∀ l, lines[n]? = some l → lines'[n]? = some (if marker <+: Lsp.trim l then l else marked k marker l)
  remove : ∀ r ∈ ranges, ∀ marker, comment r.1 = some marker → (∀ f, lines[r.1]? = some f → IsComment marker f) →
    ∀ n, r.1 ≤ n → n < r.2 → ∀ l, lines[n]? = some l → ∃ l', lines'[n]? = some l' ∧ Unmarked marker l l'

end Syntect

end Xi
