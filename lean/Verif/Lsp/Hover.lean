import Verif.Lsp.Sync

/-!
# Model of the answers to a hover request (`rust/lsp-lib/src/conversion_utils.rs`)

Texts are lists of characters.
-/

namespace Xi

namespace Lsp

open Plugin

/-- `MarkedString` of the crate `lsp-types`. -/
inductive MarkedString where
  | string (text : List Char)
  | code (language value : List Char)

/-- `HoverContents` of the crate `lsp-types`; of the kinds of markup `plain` is `PlainText`. -/
inductive HoverContents where
  | scalar (content : MarkedString)
  | array (content : List MarkedString)
  | markup (plain : Bool) (value : List Char)

/-- `Hover` of the crate `lsp-types`. -/
structure Hover where
  contents : HoverContents
  range : Option (Position × Position)

/-- `LanguageResponseError`, types.rs:132-137; without what the errors carry. -/
inductive HoverError where
  | server
  | pluginLib
  | null
  | fallback
deriving DecidableEq

/-- `Hover` of the core, plugins/rpc.rs:242-245. -/
structure CoreHover where
  content : List Char
  range : Option (Nat × Nat)
deriving DecidableEq

/-- `marked_string_to_string`, conversion_utils.rs:22-27. -/
def markedToString : MarkedString → List Char
  | .string text => text
  | .code language value => ['`', '`', '`'] ++ language ++ ['\n'] ++ value ++ ['\n', '`', '`', '`']

/-- `join` of a list of strings (Rust standard library). -/
def joinWith (sep : List Char) : List (List Char) → List Char
  | [] => []
  | [s] => s
  | s :: rest => s ++ sep ++ joinWith sep rest

/-- The match in `markdown_from_hover_contents`, conversion_utils.rs:32-39; the kind of markup is not looked at. -/
def hoverText : HoverContents → List Char
  | .scalar content => markedToString content
  | .array content => joinWith ['\n'] (content.map markedToString)
  | .markup _ value => value

/-- `markdown_from_hover_contents`, conversion_utils.rs:29-45. -/
def markdown (contents : HoverContents) : Except HoverError (List Char) :=
  let res := hoverText contents
  if res.isEmpty then .error .fallback else .ok res

/-- `core_range_from_range`, conversion_utils.rs:94-102. -/
def coreRange (source : Source) (size : Nat) (c : ChunkCache) (range : Position × Position) : Option (ChunkCache × Option (Nat × Nat)) :=
  andThen (offsetOfPosition source size c range.1) fun c start =>
  andThen (offsetOfPosition source size c range.2) fun c stop => some (c, some (start, stop))

/-- `core_hover_from_hover`, conversion_utils.rs:104-115. -/
def coreHover (source : Source) (size : Nat) (c : ChunkCache) (hover : Hover) : Option (ChunkCache × Except HoverError CoreHover) :=
  match markdown hover.contents with
  | .error e => some (c, .error e)
  | .ok content =>
    match hover.range with
    | none => some (c, .ok ⟨content, none⟩)
    | some range =>
      match coreRange source size c range with
      | none => none
      | some (c, none) => some (c, .error .pluginLib)
      | some (c, some r) => some (c, .ok ⟨content, some r⟩)

/-- The answer of the server as it comes to the core, lsp_plugin.rs:164-169 and 186-187: `none` is `null`. -/
def answerHover (source : Source) (size : Nat) (c : ChunkCache) (answer : Except Unit (Option Hover)) : Option (ChunkCache × Except HoverError CoreHover) :=
  match answer with
  | .error _ => some (c, .error .server)
  | .ok none => some (c, .error .null)
  | .ok (some hover) => coreHover source size c hover

/-- `do_show_hover`, event_context.rs:693-701: what the front end gets. -/
def showHover : Except HoverError CoreHover → Option (List Char)
  | .ok hover => some hover.content
  | .error _ => none

end Lsp

end Xi
