import Verif.Spec.Lang
/-!
# The tokens of Rust, read character by character
-/

namespace Xi

namespace Lang

/-- A digit. -/
def digit (c : Char) : Bool := '0' ≤ c ∧ c ≤ '9'

/-- A letter of ASCII or an underline. -/
def letter (c : Char) : Bool := ('A' ≤ c ∧ c ≤ 'Z') ∨ ('a' ≤ c ∧ c ≤ 'z') ∨ c = '_'

/-- How many characters are a digit followed by digits and underlines. -/
def digitsLen (cs : List Char) : Option Nat :=
  if (cs.head?.map digit).getD false then some (cs.takeWhile (fun c => c = '_' || digit c)).length else none

/-- How many characters are a suffix of an integer. -/
def suffixLen (cs : List Char) : Option Nat :=
  (["u8", "u16", "u32", "u64", "u128", "usize", "i8", "i16", "i32", "i64", "i128", "isize"].find? (fun w => w.toList.isPrefixOf cs)).map (·.length)

/-- Digits of a base: as many characters as are digits or underlines, if there is a digit among them; and a suffix. -/
def baseLen (d : Char → Bool) (cs : List Char) : Option Nat :=
  if (cs.takeWhile (fun c => d c || c = '_')).any d then
    some ((cs.takeWhile (fun c => d c || c = '_')).length + (suffixLen (cs.dropWhile (fun c => d c || c = '_'))).getD 0)
  else none

/-- A number in base 16, 8 or 2. -/
def nondecimalLen : List Char → Option Nat
  | '0' :: 'x' :: t => (baseLen hex t).map (fun n => n + 2)
  | '0' :: 'o' :: t => (baseLen (fun c => '0' ≤ c ∧ c ≤ '7') t).map (fun n => n + 2)
  | '0' :: 'b' :: t => (baseLen (fun c => c = '0' || c = '1') t).map (fun n => n + 2)
  | _ => none

/-- A point that is not followed by a letter, and digits. -/
def fractionLen : List Char → Nat
  | '.' :: t => if (t.head?.map letter).getD false then 0 else 1 + (digitsLen t).getD 0
  | _ => 0

/-- The exponent. -/
def exponentLen : List Char → Nat
  | [] => 0
  | e :: t =>
    if e = 'e' ∨ e = 'E' then
      if t.head? = some '+' ∨ t.head? = some '-' then ((digitsLen t.tail).map (fun n => n + 2)).getD 0
      else ((digitsLen t).map (fun n => n + 1)).getD 0
    else 0

/-- The suffix of a number that is no integer. -/
def floatSuffixLen (cs : List Char) : Nat := if ['f', '3', '2'].isPrefixOf cs ∨ ['f', '6', '4'].isPrefixOf cs then 3 else 0

/-- A decimal number: digits, and then the suffix of an integer, or a fraction, an exponent and a suffix. -/
def decimalLen (cs : List Char) : Option Nat :=
  (digitsLen cs).map (fun n =>
    match suffixLen (cs.drop n) with
    | some k => n + k
    | none =>
      let f := n + fractionLen (cs.drop n)
      let e := f + exponentLen (cs.drop f)
      e + floatSuffixLen (cs.drop e))

/-- A number without a sign. -/
def positiveLen (cs : List Char) : Option Nat := (nondecimalLen cs).or (decimalLen cs)

/-- A number, possibly with a minus. -/
def numberLen : List Char → Option Nat
  | '-' :: t => (positiveLen t).map (fun n => n + 1)
  | cs => positiveLen cs

/-- How many characters are an operator: as many as possible, but `=>` does not count. -/
def operatorLen (cs : List Char) : Option Nat :=
  [3, 2, 1].find? (fun n => n ≤ cs.length ∧ String.ofList (cs.take n) ∈ operators ∧ cs.take n ≠ ['=', '>'])

/-- White space. -/
def blankChar (c : Char) : Bool := c ∈ [' ', '\t', '\n', '\r', '\x0b', '\x0c']

/-- The word at the beginning of a text. -/
def wordAt (cs : List Char) : List Char := if (cs.head?.map letter).getD false then cs.takeWhile wordChar else []

/-- The token at the beginning of a text in code, and how many characters it has.  A comment to the end of the line has no length. -/
def look (cs : List Char) : Option (StateEl × Option Nat) :=
  if ['/', '*'].isPrefixOf cs then some (.comment, some 2)
  else if ['/', '/'].isPrefixOf cs then some (.comment, none)
  else
    match numberLen cs with
    | some n => some (.numericLiteral, some n)
    | none =>
      if cs.head? = some '"' then some (.strQuote, some 1)
      else
        match charLen cs with
        | some n => some (.charQuote, some n)
        | none =>
          match operatorLen cs with
          | some n => some (.operator, some n)
          | none =>
            if String.ofList (wordAt cs) ∈ keywords then some (.keyword, some (wordAt cs).length)
            else if String.ofList (wordAt cs) ∈ primTypes then some (.primType, some (wordAt cs).length)
            else if (cs.head?.map blankChar).getD false then some (.source, some (cs.takeWhile blankChar).length)
            else none

/-- The first token of a text in code, and the number of characters before it.  Words are skipped as a whole, everything else character by character; the first number says
how many characters are still to be skipped, the second how many there were. -/
def firstToken : Nat → Nat → List Char → Option (Nat × StateEl × Option Nat)
  | _, _, [] => none
  | k + 1, i, _ :: t => firstToken k (i + 1) t
  | 0, i, c :: t =>
    match look (c :: t) with
    | some token => some (i, token)
    | none => firstToken ((wordAt (c :: t)).length - 1) (i + 1) t

end Lang

end Xi
