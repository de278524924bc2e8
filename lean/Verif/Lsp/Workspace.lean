import Verif.Config.Files

/-!
# Model of how the language of a document and its workspace are found (`rust/lsp-lib/src/utils.rs`, `lsp_plugin.rs`)

A path is the list of its names, the innermost first, with a flag for paths that begin with `/`; it has no `.` and no `..` in it.
The file system is a function from folders to their entries; it does not change in between.
-/

namespace Xi

namespace Lsp

/-- `LanguageConfig`, types.rs:48-57, with the key in `language_config`; without how the server is started. -/
structure LanguageConfig where
  id : String
  extensions : List (List Char)
  singleFile : Bool
  workspace : Option String

/-- A path, see above. -/
structure DocPath where
  absolute : Bool
  names : List String
deriving DecidableEq

/-- `read_dir`: `none` if the folder cannot be read; an entry is `none` if it cannot be read. -/
abbrev Folders := DocPath → Option (List (Option String))

/-- `types::Error`, types.rs:110-116, as far as it can come from here. -/
inductive RootError where
  | path
  | url
  | io
deriving DecidableEq

/-- `get_workspace_root_uri`, utils.rs:130-152.  A URL can be made of absolute paths only (crate `url`). -/
def workspaceRoot (fs : Folders) (identifier : String) (absolute : Bool) : List String → Except RootError DocPath
  | [] => .error .path
  | _ :: parent =>
    match fs ⟨absolute, parent⟩ with
    | none => .error .io
    | some entries =>
      if some identifier ∈ entries then
        if absolute then .ok ⟨absolute, parent⟩ else .error .url
      else workspaceRoot fs identifier absolute parent

/-- `get_language_for_view`, lsp_plugin.rs:264-276; the languages in the order in which the `HashMap` has them. -/
def languageFor (config : List LanguageConfig) (doc : DocPath) : Option LanguageConfig :=
  match doc.names with
  | [] => none
  | name :: _ =>
    match (Config.stemExt name.toList).2 with
    | none => none
    | some ext => config.find? fun l => l.extensions.any fun x => x = ext

/-- `new_view`, lsp_plugin.rs:117-125: the root of the workspace, if there is one. -/
def rootFor (fs : Folders) (l : LanguageConfig) (doc : DocPath) : Option DocPath :=
  match l.workspace with
  | none => none
  | some identifier =>
    match workspaceRoot fs identifier doc.absolute doc.names with
    | .ok root => some root
    | .error _ => none

/-- Which server a document goes to: that of a workspace or the generic one, lsp_plugin.rs:208-220. -/
inductive ServerKey where
  | root (path : DocPath)
  | generic
deriving DecidableEq

/-- `new_view`, lsp_plugin.rs:105-134, up to the URL of the document; `none` is a panic, `some none` that there is no server.
`path` is `none` for a view without a file. -/
def serverFor (fs : Folders) (config : List LanguageConfig) (path : Option DocPath) : Option (Option (String × ServerKey)) :=
  match path with
  | none => some none
  | some doc =>
    match languageFor config doc with
    | none => some none
    | some l =>
      match (rootFor fs l doc).map ServerKey.root with
      | some key => if doc.absolute then some (some (l.id, key)) else none
      | none =>
        if l.singleFile then
          if doc.absolute then some (some (l.id, .generic)) else none
        else some none

end Lsp

end Xi
