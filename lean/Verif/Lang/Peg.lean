/-!
# Parsing expressions

Model of `rust/experimental/lang/src/peg.rs`.  Bytes are numbers below 256.  A slice that begins after the end would be a panic; here it is empty, and `Good`
(Lang/PegLemmas.lean) says that there is none.
-/

namespace Xi

namespace Lang

/-- Bytes. -/
abbrev Bytes := List Nat

/-- The trait `Peg`, peg.rs:20-22: how many bytes match, if any do. -/
abbrev Peg := Bytes → Option Nat

/-- `OneByte`, peg.rs:31-42. -/
def oneByte (f : Nat → Bool) : Peg
  | [] => none
  | b :: _ => if f b then some 1 else none

/-- A byte, peg.rs:44-49. -/
def byte (b : Nat) : Peg := oneByte (fun x => x = b)

/-- `(b as i8) > -0x40`. -/
def notContinuation (b : Nat) : Bool := (if b < 128 then (b : Int) else (b : Int) - 256) > -64

/-- `char::from_u32`. -/
def fromU32 (n : Nat) : Option Char := if n.isValidChar then some (Char.ofNat n) else none

/-- `decode_utf8`, peg.rs:53-94. -/
def decodeUtf8 : Bytes → Option (Char × Nat)
  | [] => none
  | b :: s =>
    if b < 0x80 then some (Char.ofNat b, 1)
    else if b ≥ 0xc2 ∧ b < 0xe0 ∧ s.length ≥ 1 then
      let b2 := s.getD 0 0
      if notContinuation b2 then none
      else (fromU32 (b * 64 + b2 - 0x3080)).map (fun c => (c, 2))
    else if b ≥ 0xe0 ∧ b < 0xf0 ∧ s.length ≥ 2 then
      let b2 := s.getD 0 0
      let b3 := s.getD 1 0
      if notContinuation b2 || notContinuation b3 then none
      else
        let cp := b * 4096 + b2 * 64 + b3 - 0xe2080
        if cp < 0x800 then none
        else (fromU32 cp).map (fun c => (c, 3))
    else if b ≥ 0xf0 ∧ b < 0xf5 ∧ s.length ≥ 3 then
      let b2 := s.getD 0 0
      let b3 := s.getD 1 0
      let b4 := s.getD 2 0
      if notContinuation b2 || notContinuation b3 || notContinuation b4 then none
      else
        let cp := b * 262144 + b2 * 4096 + b3 * 64 + b4 - 0x03c82080
        if cp < 0x10000 then none
        else (fromU32 cp).map (fun c => (c, 4))
    else none

/-- `OneChar`, peg.rs:51 and 96-106. -/
def oneChar (f : Char → Bool) : Peg := fun s =>
  match decodeUtf8 s with
  | some (c, len) => if f c then some len else none
  | none => none

/-- Bytes as a parser, peg.rs:148-165. -/
def lit (w : Bytes) : Peg := fun s => if s.length ≥ w.length ∧ s.take w.length = w then some w.length else none

/-- Two parsers, peg.rs:167-172. -/
def seq (p q : Peg) : Peg := fun s => (p s).bind (fun n => (q (s.drop n)).map (fun m => n + m))

/-- Three parsers, peg.rs:174-183. -/
def seq3 (p q r : Peg) : Peg := fun s =>
  (p s).bind (fun n => (q (s.drop n)).bind (fun m => (r (s.drop (n + m))).map (fun k => n + m + k)))

/-- `Alt`, peg.rs:207-214. -/
def alt (p q : Peg) : Peg := fun s => (p s).or (q s)

/-- `Alt3`, peg.rs:217-224. -/
def alt3 (p q r : Peg) : Peg := fun s => (p s).or ((q s).or (r s))

/-- `OneOf`, peg.rs:227-239. -/
def oneOf (ps : List Peg) : Peg := fun s => ps.findSome? (fun p => p s)

/-- The loops of `Repeat` and `ZeroOrMore`, at most so often: the number of bytes and how often. -/
def repeatGo (p : Peg) : Nat → Bytes → Nat × Nat
  | 0, _ => (0, 0)
  | k + 1, s =>
    match p s with
    | some n => (n + (repeatGo p k (s.drop n)).1, (repeatGo p k (s.drop n)).2 + 1)
    | none => (0, 0)

/-- `Repeat` with a number, peg.rs:244-260: at most so often. -/
def repeatAtMost (p : Peg) (reps : Nat) : Peg := fun s => some (repeatGo p reps s).1

/-- `Repeat` with a range, peg.rs:262-282. -/
def repeatRange (p : Peg) (start stop : Nat) : Peg := fun s =>
  if (repeatGo p (stop - 1) s).2 ≥ start then some (repeatGo p (stop - 1) s).1 else none

/-- `Repeat` with a beginning, peg.rs:284-300.  The loop ends because each turn takes a byte (`repeatGo_done`). -/
def repeatFrom (p : Peg) (start : Nat) : Peg := fun s =>
  if (repeatGo p (s.length + 1) s).2 ≥ start then some (repeatGo p (s.length + 1) s).1 else none

/-- `Optional`, peg.rs:317-324. -/
def optional (p : Peg) : Peg := fun s => (p s).or (some 0)

/-- `OneOrMore`, peg.rs:327-334. -/
def oneOrMore (p : Peg) : Peg := repeatFrom p 1

/-- `ZeroOrMore`, peg.rs:336-347. -/
def zeroOrMore (p : Peg) : Peg := fun s => some (repeatGo p (s.length + 1) s).1

/-- `FailIf`, peg.rs:350-360. -/
def failIf (p : Peg) : Peg := fun s =>
  match p s with
  | some _ => none
  | none => some 0

end Lang

end Xi
