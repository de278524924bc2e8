import Verif.Lsp.Sync
import Verif.Spec.Utf8
import Verif.Spec.ChunkCache

/-!
# What a language server makes of a position and of a change

After the Language Server Protocol, version 3: lines end with `\n`, `\r\n` or `\r`; the character of
a position counts UTF-16 code units; a character beyond the end of the line means the end of the
line.
-/

namespace Xi

namespace Lsp

/-- The number of characters before a position. -/
def locate : List Char → Nat → Nat → Nat
  | [], _, _ => 0
  | c :: cs, 0, character =>
    if c = '\n' ∨ c = '\r' ∨ character = 0 then 0 else locate cs 0 (character - utf16Len c) + 1
  | '\r' :: '\n' :: cs, line + 1, character => locate cs line character + 2
  | c :: cs, line + 1, character => locate cs (if c = '\n' ∨ c = '\r' then line else line + 1) character + 1

/-- The server replaces the range, or the whole document, by the text. -/
def Applies (doc : List Char) (change : Change) (doc' : List Char) : Prop :=
  ∃ text : List Char, change.text = text.flatMap String.utf8EncodeChar ∧
    match change.range with
    | none => doc' = text
    | some (s, e) => doc' = doc.take (locate doc s.line s.character) ++ text ++ doc.drop (locate doc e.line e.character)

/-- The changes of one notification, in order. -/
inductive AppliesAll : List Char → List Change → List Char → Prop
  | nil {doc : List Char} : AppliesAll doc [] doc
  | cons {doc doc' doc'' : List Char} {change : Change} {rest : List Change} : Applies doc change doc' → AppliesAll doc' rest doc'' → AppliesAll doc (change :: rest) doc''

/-- The number of UTF-16 code units after the last newline. -/
def tailUnits (s : List Char) : Nat := ((s.reverse.takeWhile fun c => c != '\n').map utf16Len).sum

/-- The position of the place after the first `i` characters of a document. -/
def positionOf (doc : List Char) (i : Nat) : Position := ⟨(doc.take i).count '\n', tailUnits (doc.take i)⟩

/-- Every carriage return is followed by a newline. -/
def CrLf (s : List Char) : Prop := ∀ x y, s = x ++ '\r' :: y → ∃ z, y = '\n' :: z

/-- Up to the byte offset `off` the carriage returns are those of `\r\n`, and `off` is not inside one. -/
def PlaceOk (doc : List Char) (off : Nat) : Prop :=
  ∀ a b, doc = a ++ b → (a.flatMap String.utf8EncodeChar).length = off → CrLf a

/-- The view of the document `r`, updated after the edit `d` of the document `old`. -/
structure Edited (old : List Char) (d : Delta UInt8) (r : Rope) (c : Plugin.ChunkCache) : Prop where
  wf : d.WF
  len : (old.flatMap String.utf8EncodeChar).length = d.baseLen
  whole : Plugin.WholeChars (old.flatMap String.utf8EncodeChar) d
  apply : d.apply (old.flatMap String.utf8EncodeChar) = some r.text
  coh : Plugin.Coherent c r.text

/-- After the changes the server has the document `r`. -/
def InSync (old : List Char) (changes : List Change) (r : Rope) : Prop :=
  ∃ new : List Char, r.text = new.flatMap String.utf8EncodeChar ∧ AppliesAll old changes new

end Lsp

end Xi
