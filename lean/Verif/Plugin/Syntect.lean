import Verif.Plugin.StateCache

/-!
# The plugin for syntax highlighting

Model of `rust/syntect-plugin/src/stackmap.rs` and of the highlighting part of `rust/syntect-plugin/src/main.rs`.  The parser (the crate
`syntect`) is a parameter.
-/

namespace Xi

namespace Syntect

variable {σ : Type} [DecidableEq σ]

/-- `struct Node`, stackmap.rs:25-28. -/
inductive Node (σ : Type) where
  | mk (value : Option Nat) (children : List (σ × Node σ))

/-- `Node::value`. -/
def Node.value : Node σ → Option Nat
  | .mk v _ => v

/-- `Node::children`; a map, of which the first pair with a key counts. -/
def Node.children : Node σ → List (σ × Node σ)
  | .mk _ cs => cs

/-- `enum LookupResult`, stackmap.rs:41-44. -/
inductive LookupResult where
  | existing (id : Nat)
  | new (id : Nat)
deriving DecidableEq, Repr

/-- The child for a scope, a new one without value if there is none (stackmap.rs:72-74). -/
def Node.childFor (n : Node σ) (s : σ) : Node σ := (n.children.lookup s).getD (.mk none [])

/-- The node with a child put in place. -/
def Node.setChild (n : Node σ) (s : σ) (c : Node σ) : Node σ := .mk n.value ((s, c) :: n.children)

/-- `Node::get_value`, stackmap.rs:51-76; `none` is the panic for an empty stack.  A child that is put in place hides an older one. -/
def Node.getValue (n : Node σ) : List σ → Nat → Option (Node σ × LookupResult)
  | [], _ => none
  | [first], nextId =>
    match n.children.lookup first with
    | none => some (n.setChild first (.mk (some nextId) []), .new nextId)
    | some c =>
      match c.value with
      | none => some (n.setChild first (.mk (some nextId) c.children), .new nextId)
      | some value => some (n, .existing value)
  | first :: rest, nextId =>
    match (n.childFor first).getValue rest nextId with
    | none => none
    | some (c, r) => some (n.setChild first c, r)

/-- `struct StackMap`, stackmap.rs:32-35; `next_id` is not bounded. -/
structure StackMap (σ : Type) where
  nextId : Nat := 0
  scopes : Node σ := .mk none []

/-- `StackMap::get_value`, stackmap.rs:81-88; `none` is a panic. -/
def StackMap.getValue (m : StackMap σ) (stack : List σ) : Option (StackMap σ × LookupResult) :=
  match m.scopes.getValue stack m.nextId with
  | none => none
  | some (n, .new id) => some (⟨m.nextId + 1, n⟩, .new id)
  | some (n, .existing id) => some (⟨m.nextId, n⟩, .existing id)

/-- `ScopeSpan`, core-lib/src/plugins/rpc.rs:141-145. -/
structure ScopeSpan where
  start : Nat
  stop : Nat
  id : Nat
deriving DecidableEq, Repr

/-- What the plugin sends to the core. -/
inductive Msg (σ : Type) where
  /-- `add_scopes`, plugin-lib/src/view.rs:153-160 -/
  | addScopes (scopes : List (List σ))
  /-- `update_spans`, plugin-lib/src/view.rs:180-190 -/
  | updateSpans (start len : Nat) (spans : List ScopeSpan)
deriving DecidableEq, Repr

/-- What is used of the crate `syntect`: parsing a line gives the next state of the parser, and what happens to the stack of scopes, and where. -/
structure Parser (P σ : Type) where
  parse : P → List UInt8 → P × List (Nat × (List σ → List σ))

/-- `struct PluginState`, main.rs:78-88, without indentation; `sent` is what has been sent to the core. -/
structure PluginState (P σ : Type) where
  idents : StackMap σ := {}
  offset : Nat := 0
  initial : Option P := none
  spansStart : Nat := 0
  spans : List ScopeSpan := []
  newScopes : List (List σ) := []
  sent : List (Msg σ) := []

variable {P : Type}

/-- `identifier_for_stack`, main.rs:163-174; scopes are sent as their names. -/
def PluginState.identifier (st : PluginState P σ) (stack : List σ) : Option (PluginState P σ × Nat) :=
  match st.idents.getValue stack with
  | none => none
  | some (m, .existing id) => some ({ st with idents := m }, id)
  | some (m, .new id) => some ({ st with idents := m, newScopes := st.newScopes ++ [stack] }, id)

/-- A span from `prev` to `cursor` of the current line, main.rs:139-144 and 151-157; `none` is an underflow. -/
def PluginState.pushSpan (st : PluginState P σ) (prev cursor id : Nat) (always : Bool) : Option (PluginState P σ) :=
  if st.offset < st.spansStart ∨ cursor < prev then none
  else
    let start := st.offset - st.spansStart + prev
    let stop := start + (cursor - prev)
    if always ∨ start ≠ stop then some { st with spans := st.spans ++ [⟨start, stop, id⟩] } else some st

/-- The span before something happens to the stack, main.rs:137-146; the subtractions are also done without `accumulate`. -/
def PluginState.spanStep (accumulate : Bool) (st : PluginState P σ) (stack : List σ) (prev cursor : Nat) : Option (PluginState P σ) :=
  if stack.isEmpty then some st
  else
    match st.identifier stack with
    | none => none
    | some (st, id) =>
      if accumulate then st.pushSpan prev cursor id false
      else if st.offset < st.spansStart ∨ cursor < prev then none
      else some st

/-- The loop of `compute_syntax`, main.rs:136-149. -/
def PluginState.spanLoop (accumulate : Bool) : List (Nat × (List σ → List σ)) → PluginState P σ → List σ → Nat → Option (PluginState P σ × List σ × Nat)
  | [], st, stack, prev => some (st, stack, prev)
  | (cursor, batch) :: ops, st, stack, prev =>
    match st.spanStep accumulate stack prev cursor with
    | none => none
    | some st => PluginState.spanLoop accumulate ops st (batch stack) cursor

/-- `compute_syntax`, main.rs:123-159; `none` is a panic. -/
def PluginState.computeSyntax (parser : Parser P σ) (st : PluginState P σ) (line : List UInt8) (state : Option (P × List σ)) (accumulate : Bool) :
    Option (PluginState P σ × (P × List σ)) := do
  let (p, stack) ← state.or (st.initial.map (fun p => (p, [])))
  let (p, ops) := parser.parse p line
  let (st, stack, prev) ← PluginState.spanLoop accumulate ops st stack 0
  let st ←
    if accumulate then do
      let (st, id) ← st.identifier stack
      st.pushSpan prev line.length id true
    else some st
  return (st, (p, stack))

/-- `flush_spans`, main.rs:216-227; `none` is an underflow. -/
def PluginState.flushSpans (st : PluginState P σ) : Option (PluginState P σ) :=
  let st := if st.newScopes.isEmpty then st else { st with sent := st.sent ++ [.addScopes st.newScopes], newScopes := [] }
  if st.spansStart ≠ st.offset then
    if st.offset < st.spansStart then none
    else some { st with sent := st.sent ++ [.updateSpans st.spansStart (st.offset - st.spansStart) st.spans], spans := [], spansStart := st.offset }
  else some { st with spansStart := st.offset }

/-- Highlighting goes on at `offset`, main.rs:180-184. -/
def PluginState.moveTo (st : PluginState P σ) (offset : Nat) : Option (PluginState P σ) :=
  if offset ≠ st.offset then st.flushSpans.map (fun st => { st with offset := offset, spansStart := offset }) else some st

/-- The part of `highlight_one_line` that makes spans, main.rs:180-197, for a line at `offset` with the state at its start; with the state at
its end, which is none for an empty line. -/
def PluginState.highlightLine (parser : Parser P σ) (st : PluginState P σ) (offset : Nat) (line : List UInt8) (state : Option (P × List σ)) :
    Option (PluginState P σ × Option (P × List σ)) :=
  match st.moveTo offset with
  | none => none
  | some st =>
    if line.isEmpty then some (st, none)
    else
      match st.computeSyntax parser line state true with
      | none => none
      | some (st, next) => some ({ st with offset := st.offset + line.length }, some next)

/-- `do_highlighting`, main.rs:633-651, as far as it concerns this state; `new_view` calls it for a new state (657-663). -/
def PluginState.restart (st : PluginState P σ) (initial : P) : PluginState P σ :=
  { st with initial := some initial, spans := [], newScopes := [], offset := 0, spansStart := 0 }

/-- What happens to the state for one view. -/
inductive Op (P σ : Type) where
  /-- `highlight_one_line` -/
  | line (offset : Nat) (text : List UInt8) (state : Option (P × List σ))
  /-- `flush_spans` at the end of `idle`, main.rs:725-741 -/
  | flush
  /-- `get_metadata`, main.rs:256-265, for indenting and comments -/
  | metadata (text : List UInt8)
  /-- the view is saved or gets another language, main.rs:669-678 -/
  | restart (initial : P)

/-- The state after an operation; `none` is a panic. -/
def PluginState.step (parser : Parser P σ) (st : PluginState P σ) : Op P σ → Option (PluginState P σ)
  | .line offset text state => (st.highlightLine parser offset text state).map (·.1)
  | .flush => st.flushSpans
  | .metadata text => (st.computeSyntax parser text none false).map (·.1)
  | .restart initial => some (st.restart initial)

/-- The state after some operations. -/
def PluginState.run (parser : Parser P σ) (st : PluginState P σ) : List (Op P σ) → Option (PluginState P σ)
  | [] => some st
  | op :: ops => (st.step parser op).bind (fun st => PluginState.run parser st ops)

/-! ## With the cache of states -/

open Plugin

/-- The parser for the cache: `LineState` is `Option<(ParseState, ScopeStack)>` (main.rs:97), states are compared by what the parser keeps (main.rs:201).
The `unwrap`s there are not modelled: states in the cache are never missing. -/
def highlighter [DecidableEq P] (parser : Parser P σ) (initial : P) : Highlighter (Option (P × List σ)) where
  init := none
  step s line :=
    let (p, stack) := s.getD (initial, [])
    let (p, ops) := parser.parse p line
    some (p, ops.foldl (fun s o => o.2 s) stack)
  same a b := decide (a.map (·.1) = b.map (·.1))

/-- `highlight_one_line`, main.rs:177-214, with spans and cache; `none` is a panic. -/
def PluginState.highlightOneLine [DecidableEq P] (parser : Parser P σ) (initial : P) (source : Source) (size : Nat) (rng : Nat → Nat) (st : PluginState P σ)
    (c : StateCache (Option (P × List σ))) : Option (PluginState P σ × StateCache (Option (P × List σ)) × Bool) :=
  match c.getFrontier with
  | none => some (st, c, false)
  | some p =>
    match c.getPrev none p with
    | (lineNum, offset, s) =>
      match c.buf.getLine source size lineNum with
      | none => none
      | some (buf, none) => do
        let st ← st.moveTo offset
        let c ← StateCache.closeFrontier { c with buf := buf }
        return (st, c, false)
      | some (buf, some text) => do
        let (st, next) ← st.highlightLine parser offset text s
        if text.getLast? = some newline then
          let (c, more) ← settle (highlighter parser initial) source size rng { c with buf := buf } next (lineNum + 1)
          return (st, c, more)
        else
          let c ← StateCache.closeFrontier { c with buf := buf }
          return (st, c, false)

/-- The loop of `idle`, main.rs:729-738; the result says whether `schedule_idle` is called again.  `busy` is `request_is_pending`. -/
def PluginState.idleLoop [DecidableEq P] (parser : Parser P σ) (initial : P) (source : Source) (size : Nat) (rng : Nat → Nat → Nat) (busy : Nat → Bool) :
    Nat → PluginState P σ → StateCache (Option (P × List σ)) → Option (PluginState P σ × StateCache (Option (P × List σ)) × Bool)
  | 0, st, c => some (st, c, true)
  | n + 1, st, c =>
    match st.highlightOneLine parser initial source size (rng n) c with
    | none => none
    | some (st, c, false) => some (st, c, false)
    | some (st, c, true) => if busy n then some (st, c, true) else PluginState.idleLoop parser initial source size rng busy n st c

/-- `idle`, main.rs:725-741, without indentation: `flush_spans` at the end in any case. -/
def PluginState.idle [DecidableEq P] (parser : Parser P σ) (initial : P) (source : Source) (size : Nat) (rng : Nat → Nat → Nat) (busy : Nat → Bool)
    (st : PluginState P σ) (c : StateCache (Option (P × List σ))) : Option (PluginState P σ × StateCache (Option (P × List σ)) × Bool) :=
  match PluginState.idleLoop parser initial source size rng busy linesPerRpc st c with
  | none => none
  | some (st, c, more) => st.flushSpans.map (fun st => (st, c, more))

/-- `idle` until it is not scheduled any more, at most `fuel` times; `none` also if that is not enough. -/
def PluginState.idles [DecidableEq P] (parser : Parser P σ) (initial : P) (source : Source) (size : Nat) (rng : Nat → Nat → Nat → Nat) (busy : Nat → Nat → Bool) :
    Nat → PluginState P σ → StateCache (Option (P × List σ)) → Option (PluginState P σ × StateCache (Option (P × List σ)))
  | 0, _, _ => none
  | n + 1, st, c =>
    match st.idle parser initial source size (rng n) (busy n) c with
    | none => none
    | some (st, c, false) => some (st, c)
    | some (st, c, true) => PluginState.idles parser initial source size rng busy n st c

end Syntect

end Xi
