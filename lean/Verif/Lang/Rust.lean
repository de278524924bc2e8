import Verif.Lang.Peg
import Verif.Lang.StateStack
/-!
# The parser for Rust

Model of `rust/experimental/lang/src/language/rust.rs`.  A panic is `none`.
-/

namespace Xi

namespace Lang

/-- The number of a character. -/
def ch (c : Char) : Nat := c.toNat

/-- The bytes of a literal of ASCII. -/
def bytes (w : String) : Bytes := w.toList.map ch

/-- `StateEl`, rust.rs:39-57. -/
inductive StateEl where
  | source | strQuote | charQuote | comment | charConst | numericLiteral | invalid | keyword | operator | primType
deriving DecidableEq, Repr

/-- `scope_id`, rust.rs:59-75. -/
def StateEl.scopeId : StateEl → Nat
  | .source => 0
  | .strQuote => 1
  | .charQuote => 2
  | .comment => 3
  | .charConst => 4
  | .numericLiteral => 5
  | .invalid => 6
  | .keyword => 7
  | .operator => 8
  | .primType => 9

/-- `ALL_SCOPES`, rust.rs:26-37. -/
def allScopes : List (List String) :=
  [["source.rust"], ["source.rust", "string.quoted.double.rust"], ["source.rust", "string.quoted.single.rust"],
   ["source.rust", "comment.line.double-slash.rust"], ["source.rust", "constant.character.escape.rust"],
   ["source.rust", "constant.numeric.decimal.rust"], ["source.rust", "invalid.illegal.rust"], ["source.rust", "keyword.operator.rust"],
   ["source.rust", "keyword.operator.arithmetic.rust"], ["source.rust", "entity.name.type.rust"]]

/-- `RUST_KEYWORDS`, rust.rs:78-132. -/
def rustKeywords : List String :=
  ["Self", "abstract", "alignof", "as", "become", "box", "break", "const", "continue", "crate", "default", "do", "else", "enum", "extern",
   "false", "final", "fn", "for", "if", "impl", "in", "let", "loop", "macro", "match", "mod", "move", "mut", "offsetof", "override",
   "priv", "proc", "pub", "pure", "ref", "return", "self", "sizeof", "static", "struct", "super", "trait", "true", "type", "typeof",
   "union", "unsafe", "unsized", "use", "virtual", "where", "while", "yield"]

/-- `RUST_PRIM_TYPES`, rust.rs:135-138. -/
def rustPrimTypes : List String :=
  ["bool", "char", "f32", "f64", "i128", "i16", "i32", "i64", "i8", "isize", "str", "u128", "u16", "u32", "u64", "u8", "usize"]

/-- `RUST_OPERATORS`, rust.rs:140-144. -/
def rustOperators : List String :=
  ["!", "%=", "%", "&=", "&&", "&", "*=", "*", "+=", "+", "-=", "-", "/=", "/", "<<=", "<<", ">>=", ">>", "^=", "^", "|=", "||", "|", "==",
   "=", "..", "=>", "<=", "<", ">=", ">"]

/-- The order of slices of bytes. -/
def cmpBytes : Bytes → Bytes → Ordering
  | [], [] => .eq
  | [], _ :: _ => .lt
  | _ :: _, [] => .gt
  | a :: s, b :: t => if a < b then .lt else if b < a then .gt else cmpBytes s t

/-- `slice::binary_search`: the part looked at is `lo..lo + size`. -/
def bisect (ws : List Bytes) (w : Bytes) : Nat → Nat → Nat → Bool
  | 0, _, _ => false
  | _ + 1, _, 0 => false
  | fuel + 1, lo, size + 1 =>
    match cmpBytes (ws.getD (lo + (size + 1) / 2) []) w with
    | .eq => true
    | .lt => bisect ws w fuel (lo + (size + 1) / 2 + 1) (size - (size + 1) / 2)
    | .gt => bisect ws w fuel lo ((size + 1) / 2)

/-- `binary_search(..).is_ok()`, rust.rs:240 and 242. -/
def found (ws : List String) (w : Bytes) : Bool := bisect (ws.map bytes) w (ws.length + 1) 0 ws.length

/-- `is_digit`, rust.rs:259-261. -/
def isDigit (c : Nat) : Bool := ch '0' ≤ c && c ≤ ch '9'

/-- `is_hex_digit`, rust.rs:263-265. -/
def isHexDigit (c : Nat) : Bool := (ch '0' ≤ c && c ≤ ch '9') || (ch 'a' ≤ c && c ≤ ch 'f') || (ch 'A' ≤ c && c ≤ ch 'F')

/-- `is_ident_start`, rust.rs:268-270. -/
def isIdentStart (c : Nat) : Bool := (ch 'A' ≤ c && c ≤ ch 'Z') || (ch 'a' ≤ c && c ≤ ch 'z') || c = ch '_'

/-- `is_ident_continue`, rust.rs:272-274. -/
def isIdentContinue (c : Nat) : Bool := isIdentStart c || isDigit c

/-- `ident`, rust.rs:276-278. -/
def ident : Peg := seq (oneByte isIdentStart) (zeroOrMore (oneByte isIdentContinue))

/-- `raw_numeric`, rust.rs:281-283. -/
def rawNumeric : Peg := seq (oneByte isDigit) (zeroOrMore (alt (byte (ch '_')) (oneByte isDigit)))

/-- `int_suffix`, rust.rs:285-287. -/
def intSuffix : Peg := seq (alt (byte (ch 'u')) (byte (ch 'i'))) (oneOf (["8", "16", "32", "64", "128", "size"].map (fun w => lit (bytes w))))

/-- `OneOrMoreWithSep`, rust.rs:291-298. -/
def oneOrMoreWithSep (p sep : Peg) : Peg := seq3 (zeroOrMore sep) p (zeroOrMore (alt p sep))

/-- `positive_nondecimal`, rust.rs:300-311. -/
def positiveNondecimal : Peg :=
  seq3 (byte (ch '0'))
    (alt3 (seq (byte (ch 'x')) (oneOrMoreWithSep (oneByte isHexDigit) (byte (ch '_'))))
      (seq (byte (ch 'o')) (oneOrMoreWithSep (oneByte (fun x => ch '0' ≤ x && x ≤ ch '7')) (byte (ch '_'))))
      (seq (byte (ch 'b')) (oneOrMoreWithSep (alt (byte (ch '0')) (byte (ch '1'))) (byte (ch '_')))))
    (optional intSuffix)

/-- `positive_decimal`, rust.rs:313-326. -/
def positiveDecimal : Peg :=
  seq rawNumeric
    (alt intSuffix
      (seq3 (optional (seq3 (byte (ch '.')) (failIf (oneByte isIdentStart)) (optional rawNumeric)))
        (optional (seq3 (alt (byte (ch 'e')) (byte (ch 'E'))) (optional (alt (byte (ch '+')) (byte (ch '-')))) rawNumeric))
        (optional (alt (lit (bytes "f32")) (lit (bytes "f64"))))))

/-- `numeric_literal`, rust.rs:328-330. -/
def numericLiteral : Peg := seq (optional (byte (ch '-'))) (alt positiveNondecimal positiveDecimal)

/-- `escape`, rust.rs:332-342. -/
def escape : Peg :=
  seq (byte (ch '\\'))
    (alt3 (oneOf ((bytes "\\\'\"0nrt").map byte))
      (seq (byte (ch 'x')) (repeatAtMost (oneByte isHexDigit) 2))
      (seq3 (lit (bytes "u{")) (repeatRange (oneByte isHexDigit) 1 7) (byte (ch '}'))))

/-- `char_literal`, rust.rs:344-346. -/
def charLiteral : Peg := seq3 (byte (ch '\'')) (alt (oneChar (fun c => c ≠ '\\' && c ≠ '\'')) escape) (byte (ch '\''))

/-- `whitespace`, rust.rs:350-354. -/
def whitespace : Peg := oneOrMore (oneOf ([ch ' ', ch '\t', ch '\n', ch '\r', 0x0b, 0x0c].map byte))

/-- The escape that is none, rust.rs:165-166. -/
def badEscape : Peg := seq (failIf (oneOf ((bytes "\r\nbu").map byte))) (oneChar (fun _ => true))

/-- What `parse` answers: how much comes before, the state of the token, its length, the state afterwards. -/
structure Parsed where
  prevlen : Nat
  s0 : Nat
  len : Nat
  s1 : Nat
deriving DecidableEq, Repr

/-- The loop of `quoted_str`, rust.rs:158-172, at `i`, with `t` what is left. -/
def strScan (ctx : Context StateEl) (state : Nat) : Nat → Bytes → Option (Context StateEl × Parsed)
  | i, [] => some (ctx, ⟨0, state, i, state⟩)
  | i, b :: t =>
    if b = ch '"' then (ctx.pop state).bind (fun p => p.map (fun s => (ctx, ⟨0, state, i + 1, s⟩)))
    else if b = ch '\\' then
      match escape (b :: t) with
      | some len => some ((ctx.push state .charConst).1, ⟨i, (ctx.push state .charConst).2, len, state⟩)
      | none =>
        match badEscape t with
        | some len => some ((ctx.push state .invalid).1, ⟨i + 1, (ctx.push state .invalid).2, len, state⟩)
        | none => strScan ctx state (i + 1) t
    else strScan ctx state (i + 1) t

/-- The loop in a comment, rust.rs:209-217, at `i`, with `t` what is left. -/
def commentScan (ctx : Context StateEl) (state : Nat) : Nat → Bytes → Option (Context StateEl × Parsed)
  | i, [] => some (ctx, ⟨0, state, i, state⟩)
  | i, b :: t =>
    match lit (bytes "/*") (b :: t) with
    | some len => some ((ctx.push state .comment).1, ⟨i, (ctx.push state .comment).2, len, (ctx.push state .comment).2⟩)
    | none =>
      match lit (bytes "*/") (b :: t) with
      | some len => (ctx.pop state).bind (fun p => p.map (fun s => (ctx, ⟨0, state, i + len, s⟩)))
      | none => commentScan ctx state (i + 1) t

/-- What a turn of the loop in code does. -/
inductive Turn where
  /-- A token that changes the state. -/
  | enter (el : StateEl) (len : Nat)
  /-- A token that does not. -/
  | token (el : StateEl) (len : Nat)
  /-- The loop goes on so much further. -/
  | skip (len : Nat)
deriving DecidableEq, Repr

/-- A turn of the loop in code, rust.rs:224-252, with `t` what is left and `total` the length of the text: a comment to the end of the line has that length. -/
def turn (total : Nat) (t : Bytes) : Turn :=
  match lit (bytes "/*") t with
  | some len => .enter .comment len
  | none =>
    if (lit (bytes "//") t).isSome then .token .comment total
    else
      match numericLiteral t with
      | some len => .token .numericLiteral len
      | none =>
        if t.getD 0 0 = ch '"' then .enter .strQuote 1
        else
          match charLiteral t with
          | some len => .token .charQuote len
          | none =>
            match oneOf (rustOperators.map (fun w => lit (bytes w))) t with
            | some len => .token .operator len
            | none =>
              match ident t with
              | some len =>
                if found rustKeywords (t.take len) then .token .keyword len
                else if found rustPrimTypes (t.take len) then .token .primType len
                else .skip len
              | none =>
                match whitespace t with
                | some len => .token .source len
                | none => .skip 1

/-- The loop in code, rust.rs:223-255, at `i` with `t` what is left.  Each turn takes a byte, so `fuel` turns for that many bytes are enough (`codeScan_fuel`). -/
def codeScan (ctx : Context StateEl) (state total : Nat) : Nat → Nat → Bytes → Context StateEl × Parsed
  | 0, _, _ => ((ctx.push state .source).1, ⟨0, (ctx.push state .source).2, total, state⟩)
  | _ + 1, _, [] => ((ctx.push state .source).1, ⟨0, (ctx.push state .source).2, total, state⟩)
  | fuel + 1, i, b :: t =>
    match turn total (b :: t) with
    | .enter el len => ((ctx.push state el).1, ⟨i, (ctx.push state el).2, len, (ctx.push state el).2⟩)
    | .token el len => ((ctx.push state el).1, ⟨i, (ctx.push state el).2, len, state⟩)
    | .skip len => codeScan ctx state total fuel (i + len) ((b :: t).drop len)

/-- `parse`, rust.rs:205-256. -/
def parse (ctx : Context StateEl) (t : Bytes) (state : Nat) : Option (Context StateEl × Parsed) :=
  match ctx.tos state with
  | none => none
  | some (some .comment) => commentScan ctx state 0 t
  | some (some .strQuote) => strScan ctx state 0 t
  | some _ => some (codeScan ctx state t.length t.length 0 t)

end Lang

end Xi
