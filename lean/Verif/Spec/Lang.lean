import Verif.Spec.LangUtf8
import Verif.Lang.Highlight
/-!
# What the experimental highlighter is about

Numbers that mean stacks, and a scanner of comments and strings that reads a line character by character.
-/

namespace Xi

namespace Lang

/-- A context, and the numbers it has given away with the stacks they were given for: the empty stack to begin with, and then what was pushed on a stack whose
number is known. -/
inductive Grown {α : Type} [DecidableEq α] : Context α → List (Nat × List α) → Prop
  | new : Grown Context.new [(0, [])]
  | push {ctx : Context α} {stacks : List (Nat × List α)} (h : Grown ctx stacks) {s : Nat} {st : List α} (hs : (s, st) ∈ stacks) (el : α) :
    Grown (ctx.push s el).1 (((ctx.push s el).2, el :: st) :: stacks)

/-- The keywords: those in use and those set aside. -/
def keywords : List String :=
  ["Self", "as", "break", "const", "continue", "crate", "default", "else", "enum", "extern", "false", "fn", "for", "if", "impl", "in",
   "let", "loop", "match", "mod", "move", "mut", "pub", "ref", "return", "self", "static", "struct", "super", "trait", "true", "type",
   "union", "unsafe", "use", "where", "while"] ++
  ["abstract", "alignof", "become", "box", "do", "final", "macro", "offsetof", "override", "priv", "proc", "pure", "sizeof", "typeof",
   "unsized", "virtual", "yield"]

/-- The primitive types. -/
def primTypes : List String :=
  ["i8", "u8", "f32", "f64", "i16", "i32", "i64", "str", "u16", "u32", "u64", "bool", "char", "i128", "u128", "isize", "usize"]

/-- The operators. -/
def operators : List String :=
  ["!", "%", "&", "*", "+", "-", "/", "<", "=", ">", "^", "|", "%=", "&&", "&=", "*=", "+=", "-=", "..", "/=", "<<", "<=", "==", "=>",
   ">=", ">>", "^=", "|=", "||", "<<=", ">>="]

/-- A letter or digit of ASCII or an underline. -/
def wordChar (c : Char) : Bool := c.isAlphanum || c = '_'

/-- Where a reader of Rust is: in code, in a comment inside so many others, in a string. -/
inductive Mode where
  | code
  | comment (outer : Nat)
  | string
deriving DecidableEq, Repr

/-- A hexadecimal digit. -/
def hex (c : Char) : Bool := ('0' ≤ c ∧ c ≤ '9') ∨ ('a' ≤ c ∧ c ≤ 'f') ∨ ('A' ≤ c ∧ c ≤ 'F')

/-- How many characters after a backslash belong to an escape, if it is one: one of seven characters, `x` and at most two digits, `u` and one to six digits in
braces. -/
def escapeLen : List Char → Option Nat
  | 'x' :: t => some (1 + ((t.take 2).takeWhile hex).length)
  | 'u' :: '{' :: t =>
    let n := (t.takeWhile hex).length
    if 1 ≤ n ∧ n ≤ 6 ∧ (t.drop n).head? = some '}' then some (n + 3) else none
  | c :: _ => if c ∈ ['\\', '\'', '"', '0', 'n', 'r', 't'] then some 1 else none
  | [] => none

/-- How many characters of the text are a literal of a character: a quote, an escape or one character that is neither a quote nor a backslash, a quote. -/
def charLen : List Char → Option Nat
  | '\'' :: '\\' :: t => (escapeLen t).bind (fun n => if (t.drop n).head? = some '\'' then some (n + 3) else none)
  | '\'' :: c :: '\'' :: _ => if c = '\'' then none else some 3
  | _ => none

/-- Where the reader of a line comes to.  The number says how many characters are read without thinking about them.  Comments can be nested; what follows `//` is
skipped; in a string what follows a backslash is skipped. -/
def readMode : Mode → Nat → List Char → Mode
  | m, _, [] => m
  | m, k + 1, _ :: t => readMode m k t
  | .code, 0, c :: t =>
    if c = '/' ∧ t.head? = some '*' then readMode (.comment 0) 1 t
    else if c = '/' ∧ t.head? = some '/' then .code
    else if c = '"' then readMode .string 0 t
    else
      match charLen (c :: t) with
      | some n => readMode .code (n - 1) t
      | none => readMode .code 0 t
  | .comment d, 0, c :: t =>
    if c = '/' ∧ t.head? = some '*' then readMode (.comment (d + 1)) 1 t
    else if c = '*' ∧ t.head? = some '/' then
      match d with
      | 0 => readMode .code 1 t
      | d + 1 => readMode (.comment d) 1 t
    else readMode (.comment d) 0 t
  | .string, 0, c :: t =>
    if c = '"' then readMode .code 0 t
    else if c = '\\' then readMode .string 1 t
    else readMode .string 0 t

/-- What a token of a kind looks like, with what follows it: keywords and types are words by themselves; a number begins with a digit or a minus and a digit, and has only
letters, digits and `_`, `.`, `+`, `-`. -/
def Is (el : StateEl) (b rest : List Char) : Prop :=
  match el with
  | .source => ∀ c ∈ b, c ∈ [' ', '\t', '\n', '\r', '\x0b', '\x0c']
  | .strQuote => b = ['"']
  | .charQuote => charLen (b ++ rest) = some b.length
  | .comment => b = ['/', '*']
  | .charConst => ∃ e, b = '\\' :: e ∧ escapeLen (e ++ rest) = some e.length
  | .numericLiteral => (∃ d r, d.isDigit ∧ (b = d :: r ∨ b = '-' :: d :: r)) ∧ ∀ c ∈ b, wordChar c ∨ c ∈ ['.', '+', '-']
  | .invalid => ∃ c, b = [c] ∧ c ∉ ['\r', '\n', 'b', 'u'] ∧ escapeLen (c :: rest) = none
  | .keyword => String.ofList b ∈ keywords ∧ ∀ c ∈ rest.head?, ¬ wordChar c
  | .operator => String.ofList b ∈ operators
  | .primType => String.ofList b ∈ primTypes ∧ ∀ c ∈ rest.head?, ¬ wordChar c

/-- The stack of a reader. -/
def stackOf : Mode → List StateEl
  | .code => []
  | .comment outer => List.replicate (outer + 1) .comment
  | .string => [.strQuote]

/-- What the parser may answer to a text `cs` for a reader in `m`, when the numbers of stacks are `stacks`.

* It has cut the text into what comes before, a token that is not empty, and the rest; a reader that has come past the token is where the new state says; and the token
  is what its state says, or it is all of the text up to the end of a comment or string or of the line, or code to the end of the line without a token.
* It has found a comment that goes to the end of the line. -/
def Answer (stacks : List (Nat × List StateEl)) (m : Mode) (cs : List Char) (r : Parsed) : Prop :=
  (∃ a b rest m', cs = a ++ b ++ rest ∧ b ≠ [] ∧ r.prevlen = (encode a).length ∧ r.len = (encode b).length ∧ (r.s1, stackOf m') ∈ stacks ∧
    readMode m 0 cs = readMode m' 0 rest ∧
    ((∃ el, (r.s0, el :: stackOf m) ∈ stacks ∧ Is el b rest) ∨ (m ≠ .code ∧ a = [] ∧ (r.s0, stackOf m) ∈ stacks) ∨
      (m = .code ∧ a = [] ∧ rest = [] ∧ (r.s0, [.source]) ∈ stacks))) ∨
  (∃ a rest, m = .code ∧ cs = a ++ '/' :: '/' :: rest ∧ r.prevlen = (encode a).length ∧ r.len = (encode cs).length ∧ (r.s1, []) ∈ stacks ∧
    readMode m 0 cs = .code ∧ (r.s0, [.comment]) ∈ stacks)

/-- Spans that are not empty, one after the other, from `start` to `stop`. -/
inductive Tiles : Nat → Nat → List Span → Prop
  | nil (n : Nat) : Tiles n n []
  | cons {s : Span} {stop : Nat} {rest : List Span} (hs : s.start < s.stop) (h : Tiles s.stop stop rest) : Tiles s.start stop (s :: rest)

/-- What a span of a line says about the text it covers, when the line begins at `base` and the first scope has the number `off`: the token that the scope says, of
those kinds that are recognised by their text alone. -/
def Tells (off base : Nat) (cs : List Char) (s : Span) : Prop :=
  ∀ el, el ∈ [.charQuote, .charConst, .numericLiteral, .invalid, .keyword, .operator, .primType] → s.scope = off + el.scopeId →
    ∃ a b rest, cs = a ++ b ++ rest ∧ s.start = base + (encode a).length ∧ s.stop = base + (encode (a ++ b)).length ∧ Is el b rest

end Lang

end Xi
