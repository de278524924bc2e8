/-!
# UTF-8, in the experimental highlighter

The encoding of characters by bytes, RFC 3629.
-/

namespace Xi

namespace Lang

/-- The bytes of a character. -/
def encodeChar (c : Char) : List Nat :=
  let n := c.toNat
  if n < 0x80 then [n]
  else if n < 0x800 then [0xc0 + n / 64, 0x80 + n % 64]
  else if n < 0x10000 then [0xe0 + n / 4096, 0x80 + n / 64 % 64, 0x80 + n % 64]
  else [0xf0 + n / 262144, 0x80 + n / 4096 % 64, 0x80 + n / 64 % 64, 0x80 + n % 64]

/-- The bytes of a text. -/
def encode (text : List Char) : List Nat := text.flatMap encodeChar

/-- Bytes that are a text. -/
def Valid (s : List Nat) : Prop := ∃ text, s = encode text

end Lang

end Xi
