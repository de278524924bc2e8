import Verif.Plugin.Syntect
import Verif.Spec.StateCache

/-!
# Specification: scopes of a text
-/

namespace Xi

namespace Syntect

variable {σ P : Type} [DecidableEq σ]

/-- The stack of scopes at a place of a line: all that happened up to there has been applied. -/
def stackAt (ops : List (Nat × (List σ → List σ))) (stack : List σ) (x : Nat) : List σ :=
  (ops.filter (fun o => o.1 ≤ x)).foldl (fun s o => o.2 s) stack

/-- The scopes of all bytes of a line; none if there are no scopes. -/
def scopesOf (parser : Parser P σ) (p : P) (stack : List σ) (line : List UInt8) : List (Option (List σ)) :=
  (List.range line.length).map (fun x =>
    let s := stackAt (parser.parse p line).2 stack x
    if s.isEmpty then none else some s)

/-- Scopes for a stretch of the text. -/
structure Picture (σ : Type) where
  start : Nat
  scopes : List (Option (List σ))
deriving DecidableEq, Repr

/-- The scope of a place, by the number of the span that contains it. -/
def spanAt (table : List (List σ)) (spans : List ScopeSpan) (x : Nat) : Option (List σ) :=
  (spans.find? (fun s => s.start ≤ x && x < s.stop)).bind (fun s => table[s.id]?)

/-- What the core understands: it keeps a table of scopes, to which new ones are added, and looks up the numbers it gets. -/
def decode (table : List (List σ)) : List (Msg σ) → List (Picture σ)
  | [] => []
  | .addScopes scopes :: ms => decode (table ++ scopes) ms
  | .updateSpans start len spans :: ms => ⟨start, (List.range len).map (spanAt table spans)⟩ :: decode table ms

/-- A highlighter that just sends the scopes of the lines it has looked at: the stretch it is working on and what it has sent. -/
structure Ideal (P σ : Type) where
  initial : Option P := none
  start : Nat := 0
  scopes : List (Option (List σ)) := []
  sent : List (Picture σ) := []

/-- What is not empty is sent. -/
def Ideal.flush (i : Ideal P σ) : Ideal P σ :=
  if i.scopes.isEmpty then i else { i with start := i.start + i.scopes.length, scopes := [], sent := i.sent ++ [⟨i.start, i.scopes⟩] }

/-- A line that does not follow the ones before begins a new stretch. -/
def Ideal.moveTo (i : Ideal P σ) (offset : Nat) : Ideal P σ :=
  if offset = i.start + i.scopes.length then i else { i.flush with start := offset }

/-- The scopes of a line are added. -/
def Ideal.draw (i : Ideal P σ) (offset : Nat) (scopes : List (Option (List σ))) : Ideal P σ :=
  { i.moveTo offset with scopes := (i.moveTo offset).scopes ++ scopes }

/-- It does what it should: it finds out the scopes of the lines, keeps those of lines that follow each other, and sends them. -/
def Ideal.step (parser : Parser P σ) (i : Ideal P σ) : Op P σ → Ideal P σ
  | .line offset text state =>
    match state.or (i.initial.map (fun p => (p, []))) with
    | none => i
    | some (p, stack) => i.draw offset (scopesOf parser p stack text)
  | .flush => i.flush
  | .metadata _ => i
  | .restart initial => { i with initial := some initial, start := 0, scopes := [] }

/-- What happens at the end of a line. -/
def stackAfter (ops : List (Nat × (List σ → List σ))) (stack : List σ) : List σ := ops.foldl (fun s o => o.2 s) stack

/-- What is assumed of the parser: it reports in order what happens in a line, the stack of scopes follows the state of the parser, and at the end of
a line there is a scope. -/
structure Parser.Ok (parser : Parser P σ) (stackOf : P → List σ) : Prop where
  sorted : ∀ p line, ((parser.parse p line).2.map Prod.fst).Pairwise (· ≤ ·)
  inside : ∀ p line, ∀ o ∈ (parser.parse p line).2, o.1 ≤ line.length
  follows : ∀ p line, stackAfter (parser.parse p line).2 (stackOf p) = stackOf (parser.parse p line).1
  scopedEnd : ∀ p line, stackAfter (parser.parse p line).2 (stackOf p) ≠ []

/-- A session: highlighting begins with a language, the states are those of the parser, and highlighting does not begin anew while there are
scopes that have not been sent: between a look at the syntax and a new beginning there is a flush.  `begun` says that there is a language,
`pending` that there may be such scopes. -/
def Calm (stackOf : P → List σ) (begun pending : Bool) : List (Op P σ) → Prop
  | [] => True
  | .line _ _ state :: ops => begun = true ∧ (∀ s, state = some s → s.2 = stackOf s.1) ∧ Calm stackOf begun true ops
  | .metadata _ :: ops => begun = true ∧ Calm stackOf begun true ops
  | .flush :: ops => Calm stackOf begun false ops
  | .restart p :: ops => stackOf p = [] ∧ pending = false ∧ Calm stackOf true false ops

/-- The state of the parser and the scopes at the start of a line, by parsing the text from its beginning. -/
def lineState (parser : Parser P σ) (initial : P) (t : List UInt8) : Nat → P × List σ
  | 0 => (initial, [])
  | n + 1 =>
    let (p, stack) := lineState parser initial t n
    ((parser.parse p (Plugin.lineText t n)).1, stackAfter (parser.parse p (Plugin.lineText t n)).2 stack)

/-- The scopes of the bytes of a line of a text. -/
def scopesIn (parser : Parser P σ) (initial : P) (t : List UInt8) (n : Nat) : List (Option (List σ)) :=
  scopesOf parser (lineState parser initial t n).1 (lineState parser initial t n).2 (Plugin.lineText t n)

/-- Pictures of stretches that follow each other from `x` on. -/
def Follow : Nat → List (Picture σ) → Prop
  | _, [] => True
  | x, p :: ps => p.start = x ∧ Follow (x + p.scopes.length) ps

end Syntect

end Xi
