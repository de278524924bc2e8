/-!
# UTF-8

Byte strings are lists of bytes.  Well-formedness refers to the encoder of Lean's
library, `String.utf8EncodeChar`.
-/

namespace Xi

/-- A byte string is well-formed UTF-8: the encoding of a sequence of characters. -/
def Utf8 (s : List UInt8) : Prop := ∃ cs : List Char, s = cs.flatMap String.utf8EncodeChar

/-- The offset `i` does not lie inside the encoding of a character: `s` is the
encoding of some characters, the first of which take up exactly `i` bytes. -/
def CharBoundary (s : List UInt8) (i : Nat) : Prop :=
  ∃ cs ds : List Char, s = cs.flatMap String.utf8EncodeChar ++ ds.flatMap String.utf8EncodeChar ∧
    i = (cs.flatMap String.utf8EncodeChar).length

/-- The number of UTF-16 code units of a character: two (a surrogate pair) for
the characters beyond the basic plane. -/
def utf16Len (c : Char) : Nat := if c.toNat < 0x10000 then 1 else 2

end Xi
