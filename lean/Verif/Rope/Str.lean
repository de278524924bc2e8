/-!
# Rust strings

Rust's `String` and `&str` are lists of bytes.  Modelled here: the few functions
of Rust's standard library and of the `memchr` and `bytecount` crates that the
rope code uses.
-/

namespace Xi

/-- A byte of the form `10xxxxxx`; `(b as i8) < -0x40`. -/
def isCont (b : UInt8) : Bool := 128 ≤ b.toNat && b.toNat < 192

/-- `str::is_char_boundary` (Rust standard library). -/
def isCharBoundary (s : List UInt8) (i : Nat) : Bool :=
  i == 0 || i == s.length || (match s[i]? with | some b => !isCont b | none => false)

/-- `&s[a..b]`, which panics unless `a <= b` and both are character boundaries
in range (Rust standard library). -/
def strSlice (s : List UInt8) (a b : Nat) : Option (List UInt8) :=
  if a ≤ b ∧ isCharBoundary s a = true ∧ isCharBoundary s b = true then some ((s.take b).drop a) else none

/-- The byte of `'\n'`. -/
def newline : UInt8 := 10

/-- `memchr::memchr(b, s)`: the index of the first occurrence. -/
def memchr (b : UInt8) : List UInt8 → Option Nat
  | [] => none
  | x :: s => if x = b then some 0 else (memchr b s).map (· + 1)

/-- `memchr::memrchr(b, s)`: the index of the last occurrence. -/
def memrchr (b : UInt8) : List UInt8 → Option Nat
  | [] => none
  | x :: s =>
    match memrchr b s with
    | some i => some (i + 1)
    | none => if x = b then some 0 else none

end Xi
