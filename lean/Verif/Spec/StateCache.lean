import Verif.Plugin.StateCache
import Verif.Spec.ChunkCache

/-!
# What the cache of states should hold
-/

namespace Xi

namespace Plugin

variable {S : Type}

/-- Line `n` of a text, with its newline. -/
def lineText (t : List UInt8) (n : Nat) : List UInt8 := part t (lineBegin t n) (lineBegin t (n + 1))

/-- The state after `k` lines from line `m` on. -/
def runLines (h : Highlighter S) (t : List UInt8) : Nat → Nat → S → S
  | _, 0, s => s
  | m, k + 1, s => runLines h t (m + 1) k (h.step s (lineText t m))

/-- The state at the start of line `n`, computed from the start of the document. -/
def stateAt (h : Highlighter S) (t : List UInt8) (n : Nat) : S := runLines h t 0 n h.init

/-- States that compare equal are exchangeable. -/
structure Highlighter.Lawful (h : Highlighter S) : Prop where
  refl : ∀ a, h.same a a = true
  symm : ∀ a b, h.same a b = true → h.same b a = true
  trans : ∀ a b c, h.same a b = true → h.same b c = true → h.same a c = true
  step : ∀ a b l, h.same a b = true → h.same (h.step a l) (h.step b l) = true

/-- The entries are at the starts of lines of the document, in order, and each has a state. -/
structure Placed (c : StateCache S) (t : List UInt8) : Prop where
  coh : Coherent c.buf t
  sorted : c.entries.Pairwise (fun a b => a.line < b.line)
  offset : ∀ e ∈ c.entries, e.offset = lineBegin t e.line
  line : ∀ e ∈ c.entries, e.line ≤ t.count newline
  state : ∀ e ∈ c.entries, e.state.isSome
  size : c.entries.length ≤ cacheSize

/-- Each state follows from the one before it, starting with state `s` at line `m`, or one of the lines
between them is pending. -/
def Chain (h : Highlighter S) (t : List UInt8) (pending : List Nat) : Nat → S → List (CacheEntry S) → Prop
  | _, _, [] => True
  | m, s, e :: es => ∃ s', e.state = some s' ∧ m < e.line ∧
      (h.same s' (runLines h t m (e.line - m) s) = true ∨ ∃ p ∈ pending, m ≤ p ∧ p < e.line) ∧
      Chain h t pending e.line s' es

/-- The states are right as far as no line is pending. -/
structure Tracked (h : Highlighter S) (c : StateCache S) (t : List UInt8) : Prop where
  placed : Placed c t
  sorted : c.frontier.Pairwise (· < ·)
  bound : ∀ p ∈ c.frontier, p ≤ t.count newline
  chain : Chain h t c.frontier 0 h.init c.entries

/-- The line of the last entry at or before line `n`; the start of the document if there is none. -/
def lastEntry (c : StateCache S) (n : Nat) : Nat := ((c.entries.filter (fun e => e.line ≤ n)).getLast?.map (·.line)).getD 0

/-- The line of the first entry after line `n`. -/
def nextEntry (c : StateCache S) (n : Nat) : Option Nat := (c.entries.find? (fun e => n < e.line)).map (·.line)

/-- The pending lines from `edge` on are all before the next entry, or there is only one and it is after it;
the entry moves from line `old` to line `new`. -/
def Clear (pending : List Nat) (edge old new : Nat) : Prop :=
  (∀ p ∈ pending, edge ≤ p → p < old ∧ p < new) ∨ ∃ q, (∀ p ∈ pending, edge ≤ p → p = q) ∧ old ≤ q ∧ new ≤ q

/-- Replacing the text from `i` to `e` by `s` does not lose a pending line. -/
def SafeEdit (c : StateCache S) (t : List UInt8) (i e : Nat) (s : List UInt8) : Prop :=
  ∀ old, nextEntry c ((t.take e).count newline) = some old →
    Clear c.frontier (lastEntry c ((t.take i).count newline)) old (old + s.count newline - (part t i e).count newline)

/-- The work that is left. -/
def workLeft (c : StateCache S) (t : List UInt8) : Nat := c.frontier.length * (t.count newline + 1)

end Plugin

end Xi
