import Verif.Core.Files
import Verif.Core.EditOps
import Verif.Rope.Find

/-!
# Model of `rust/lsp-lib/src/parse_helper.rs`, and of `prepare_lsp_json` (`rust/lsp-lib/src/language_server_client.rs`)

The stream from the server is the list of the bytes still to be read; when they are used up, it has ended.  The time it takes for them to arrive does not matter to
blocking reads.  `str::to_lowercase` is a parameter.  The memory for a body, of the length announced, is there.
-/

namespace Xi.Lsp

/-- `ParseError`, types.rs:69-75, without the details. -/
inductive ParseError where
  | io
  | parseInt
  | utf8
  | unknown
deriving DecidableEq

/-- `LspHeader`, types.rs:27-30. -/
inductive Header where
  | contentType
  | contentLength (n : Nat)
deriving DecidableEq

/-- `str::trim`. -/
def trim (s : List Char) : List Char := ((s.dropWhile EditOps.isWhitespace).reverse.dropWhile EditOps.isWhitespace).reverse

/-- What is before and after the first `": "`, `splitn(2, ": ")`; `none` if there is none. -/
def splitOnce : List Char → Option (List Char × List Char)
  | ':' :: ' ' :: rest => some ([], rest)
  | c :: rest => (splitOnce rest).map fun p => (c :: p.1, p.2)
  | [] => none

/-- A sign may come before the digits. -/
def skipPlus : List Char → List Char
  | '+' :: rest => rest
  | s => s

/-- `usize::from_str_radix(s, 10)`, on 64 bits. -/
def fromRadix (s : List Char) : Option Nat :=
  if (skipPlus s).isEmpty || !(skipPlus s).all Char.isDigit || 2 ^ 64 ≤ Nat.ofDigitChars 10 (skipPlus s) 0 then none else some (Nat.ofDigitChars 10 (skipPlus s) 0)

/-- `parse_header`, parse_helper.rs:24-36. -/
def parseHeader (lower : List Char → List Char) (s : List Char) : Except ParseError Header :=
  match splitOnce s with
  | none => .error .unknown
  | some (name, value) =>
    if lower (trim name) = "content-type".toList then .ok .contentType
    else if lower (trim name) = "content-length".toList then
      match fromRadix (lower (trim value)) with
      | some n => .ok (.contentLength n)
      | none => .error .parseInt
    else .error .unknown

/-- The bytes up to the next line feed, with it, and those after it. -/
def takeLine : List UInt8 → List UInt8 × List UInt8
  | [] => ([], [])
  | b :: rest => if b = 10 then ([b], rest) else (b :: (takeLine rest).1, (takeLine rest).2)

/-- `read_line` into an empty buffer, parse_helper.rs:45: what is in the buffer afterwards, and what is still to be read.  A line that is not UTF-8 is read but not put in the
buffer; the error is not looked at. -/
def readLine (s : List UInt8) : List Char × List UInt8 :=
  match Files.fromUtf8 (takeLine s).1 with
  | some l => (Find.chars l, (takeLine s).2)
  | none => ([], (takeLine s).2)

/-- The loop of `read_message`, parse_helper.rs:43-56; the first argument bounds the number of lines. -/
def readHeaders (lower : List Char → List Char) : Nat → Option Nat → List UInt8 → Except ParseError (Option Nat) × List UInt8
  | 0, len, s => (.ok len, s)
  | fuel + 1, len, s =>
    let r := readLine s
    if (trim r.1).isEmpty then (.ok len, r.2)
    else match parseHeader lower r.1 with
      | .error e => (.error e, r.2)
      | .ok (.contentLength n) => readHeaders lower fuel (some n) r.2
      | .ok .contentType => readHeaders lower fuel len r.2

/-- `read_message`, parse_helper.rs:39-66: the result and what is still to be read.  If there are too few bytes for the body they are all read. -/
def readMessage (lower : List Char → List Char) (s : List UInt8) : Except ParseError (List UInt8) × List UInt8 :=
  match readHeaders lower (s.length + 1) none s with
  | (.error e, rest) => (.error e, rest)
  | (.ok none, rest) => (.error .unknown, rest)
  | (.ok (some n), rest) =>
    if rest.length < n then (.error .io, [])
    else match Files.fromUtf8 (rest.take n) with
      | some body => (.ok body, rest.drop n)
      | none => (.error .utf8, rest.drop n)

/-- The first `n` rounds of the loop that reads from the server, utils.rs:191-199. -/
def readMessages (lower : List Char → List Char) : Nat → List UInt8 → List (Except ParseError (List UInt8)) × List UInt8
  | 0, s => ([], s)
  | n + 1, s => ((readMessage lower s).1 :: (readMessages lower n (readMessage lower s).2).1, (readMessages lower n (readMessage lower s).2).2)

/-- `prepare_lsp_json`, language_server_client.rs:48-51, of a request that is already a string. -/
def prepareJson (request : List UInt8) : List UInt8 :=
  ("Content-Length: ".toList ++ Nat.toDigits 10 request.length ++ "\r\n\r\n".toList).flatMap String.utf8EncodeChar ++ request

end Xi.Lsp
