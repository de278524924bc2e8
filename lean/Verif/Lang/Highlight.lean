import Verif.Lang.Rust
/-!
# The highlighter

Model of parts of `rust/experimental/lang/src/main.rs` and of `language/plaintext.rs`.  A panic is `none`.
-/

namespace Xi

namespace Lang

/-- `ScopeSpan`, core-lib/src/plugins/rpc.rs:141-145. -/
structure Span where
  start : Nat
  stop : Nat
  scope : Nat
deriving DecidableEq, Repr

/-- A string may be cut here: `str::is_char_boundary`. -/
def mayCut (line : Bytes) (i : Nat) : Bool :=
  i = 0 || i = line.length ||
    match line[i]? with
    | some b => b < 0x80 || b ≥ 0xc0
    | none => false

/-- `get_scope_id_for_state`, rust.rs:195-203, with `off` for `scope_offset.unwrap_or_default()`. -/
def scopeFor (ctx : Context StateEl) (off state : Nat) : Option Nat :=
  (ctx.tos state).map (fun el =>
    match el with
    | some el => el.scopeId + off
    | none => off)

/-- A turn of the loop of `compute_syntax`, main.rs:230-254: the context, the place, the state and the spans afterwards.  What comes before the token is given the
scope of `initial_state`, which is always the state 0. -/
def syntaxStep (off base : Nat) (line : Bytes) (ctx : Context StateEl) (i state : Nat) : Option (Context StateEl × Nat × Nat × List Span) :=
  if mayCut line i then
    (parse ctx (line.drop i) state).bind (fun (ctx', r) =>
      (scopeFor ctx' off 0).bind (fun before =>
        (scopeFor ctx' off r.s0).map (fun scope =>
          let spans := if r.prevlen > 0 then [⟨base + i, base + i + r.prevlen, before⟩] else []
          let j := i + r.prevlen
          (ctx', j + r.len, r.s1, spans ++ [⟨base + j, base + j + r.len, scope⟩]))))
  else none

/-- The loop of `compute_syntax`, main.rs:229-255.  Each turn takes a byte, so there are at most as many turns as there are bytes. -/
def syntaxGo (off base : Nat) (line : Bytes) : Nat → Context StateEl → Nat → Nat → List Span → Option (Context StateEl × Nat × List Span)
  | 0, _, _, _, _ => none
  | fuel + 1, ctx, i, state, spans =>
    if i < line.length then
      (syntaxStep off base line ctx i state).bind (fun (ctx', i', state', more) => syntaxGo off base line fuel ctx' i' state' (spans ++ more))
    else some (ctx, state, spans)

/-- `compute_syntax`, main.rs:224-258, with the parser for Rust: `base` is `offset - spans_start`. -/
def computeSyntax (off base : Nat) (ctx : Context StateEl) (line : Bytes) : Option (Context StateEl × Nat × List Span) :=
  syntaxGo off base line (line.length + 1) ctx 0 0 []

/-- The names of languages that matter here. -/
inductive Language where
  | rust
  | plainText
  | other (name : Nat)
deriving DecidableEq, Repr

/-- The scopes of the parser for a language: `get_all_scopes`, rust.rs:188-193 and plaintext.rs:43-45, for the parser chosen in main.rs:150-161. -/
def scopesOf : Language → List (List String)
  | .rust => allScopes
  | _ => [["source.plaintext"]]

/-- What of a `ViewState`, main.rs:119-127, has to do with the numbers of scopes: the language, the offset of its parser, the offset of the next parser; and the table of
scopes the core keeps for the plugin (`stack_lookup`, core-lib/src/layers.rs:205-227), to which each call adds. -/
structure Numbers where
  language : Language
  parserOffset : Option Nat
  nextOffset : Nat
  table : List (List String)
deriving DecidableEq, Repr

/-- `ViewState::new`, main.rs:130-140. -/
def Numbers.new : Numbers := ⟨.plainText, none, 0, []⟩

/-- The choice of a parser in `do_highlighting`, main.rs:149-165. -/
def Numbers.choose (v : Numbers) (language : Language) : Numbers :=
  if language ≠ v.language then { v with language := language, parserOffset := none } else v

/-- The rest of `do_highlighting`, main.rs:167-173. -/
def Numbers.announce (v : Numbers) : Numbers :=
  let scopes := scopesOf v.language
  let v := { v with table := v.table ++ scopes }
  match v.parserOffset with
  | some _ => v
  | none => { v with parserOffset := some v.nextOffset, nextOffset := v.nextOffset + scopes.length }

/-- `do_highlighting`, main.rs:142-176: called for a new view (main.rs:76-82), after a change of language (86-95) and after a save (64-69), with the language of the view. -/
def Numbers.highlight (v : Numbers) (language : Language) : Numbers := (v.choose language).announce

end Lang

end Xi
