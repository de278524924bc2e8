import Verif.Config.Files

/-!
# Model of how plugins are found (`rust/core-lib/src/plugins/catalog.rs`)

A path is the list of its names, the innermost first, and begins with `/`.  The file system does not change while plugins are loaded.  What the
crate `toml` makes of a text is given.  Errors are told apart by nobody, so they are `none`.
-/

namespace Xi

namespace Catalog

/-- A path, see above. -/
abbrev Path := List String

/-- The files: which paths there are, what is in a folder (an entry is `none` if it cannot be read), what is in a file, and the real name of a path. -/
structure Disk where
  exists_ : Path → Bool
  readDir : Path → Option (List (Option String))
  read : Path → Option String
  canonicalize : Path → Option Path

/-- `exec_path` of a manifest: a path that begins with `.`, with the names after it, or any other. -/
inductive ExecPath where
  | dot (names : Path)
  | other (text : String)
deriving DecidableEq

/-- `LanguageDefinition`, syntax.rs:33-41, as far as it matters here. -/
structure Lang (T : Type) where
  name : String
  settings : Option T := none
deriving DecidableEq

/-- `PluginDescription`, plugins/manifest.rs:29-45, as far as it matters here. -/
structure Plugin (T : Type) where
  name : String
  exec : ExecPath
  languages : List (Lang T)
deriving DecidableEq

/-- The crate `toml`: reading a manifest and a table of settings. -/
structure Toml (T : Type) where
  manifest : String → Option (Plugin T)
  table : String → Option T

variable {T : Type}

/-- `HashMap::insert`. -/
def put {K V : Type} [DecidableEq K] (m : List (K × V)) (k : K) (v : V) : List (K × V) := (k, v) :: m.filter fun e => e.1 ≠ k

/-- The closure in `find_all_manifests`, catalog.rs:113-118. -/
def manifestsIn (disk : Disk) (path : Path) : List Path :=
  match disk.readDir path with
  | none => []
  | some items => ((items.filterMap id).map fun name => "manifest.toml" :: name :: path).filter disk.exists_

/-- `find_all_manifests`, catalog.rs:104-124. -/
def findAllManifests (disk : Disk) : List Path → List Path
  | [] => []
  | path :: paths =>
    if disk.exists_ ("manifest.toml" :: path) then ("manifest.toml" :: path) :: findAllManifests disk paths
    else manifestsIn disk path ++ findAllManifests disk paths

/-- The loop over the languages in `load_manifest`, catalog.rs:136-145; `dir` is the folder of the manifest. -/
def loadLanguages (disk : Disk) (toml : Toml T) (dir : Path) : List (Lang T) → Option (List (Lang T))
  | [] => some []
  | lang :: rest =>
    let path := String.ofList (Config.withExtension lang.name.toList "toml".toList) :: dir
    if disk.exists_ path then do
      let defaults ← toml.table (← disk.read path)
      return { lang with settings := some defaults } :: (← loadLanguages disk toml dir rest)
    else do return lang :: (← loadLanguages disk toml dir rest)

/-- The program, catalog.rs:132-134. -/
def resolveExec (disk : Disk) (dir : Path) : ExecPath → Option (Path ⊕ String)
  | .dot names => (disk.canonicalize (names ++ dir)).map .inl
  | .other text => some (.inr text)

/-- A plugin as it is kept: with the path of its program. -/
structure Loaded (T : Type) where
  name : String
  exec : Path ⊕ String
  languages : List (Lang T)
deriving DecidableEq

/-- `load_manifest`, catalog.rs:126-147; `none` is an error. -/
def loadManifest (disk : Disk) (toml : Toml T) (path : Path) : Option (Loaded T) := do
  let manifest ← toml.manifest (← disk.read path)
  let exec ← resolveExec disk path.tail manifest.exec
  let languages ← loadLanguages disk toml path.tail manifest.languages
  return ⟨manifest.name, exec, languages⟩

/-- `items` and `locations` of `PluginCatalog`, catalog.rs:29-32. -/
structure Plugins (T : Type) where
  items : List (String × Loaded T) := []
  locations : List (Path × Loaded T) := []

/-- The body of the loop in `load_from_paths`, catalog.rs:55-64. -/
def Plugins.loadOne (disk : Disk) (toml : Toml T) (c : Plugins T) (path : Path) : Plugins T :=
  match loadManifest disk toml path with
  | none => c
  | some plugin => ⟨put c.items plugin.name plugin, put c.locations path plugin⟩

/-- `load_from_paths`, catalog.rs:53-66. -/
def Plugins.load (disk : Disk) (toml : Toml T) (c : Plugins T) (paths : List Path) : Plugins T :=
  (findAllManifests disk paths).foldl (Plugins.loadOne disk toml) c

/-- `reload_from_paths`, catalog.rs:46-50. -/
def Plugins.reload (disk : Disk) (toml : Toml T) (_c : Plugins T) (paths : List Path) : Plugins T := Plugins.load disk toml {} paths

/-- `get_named`, catalog.rs:94-96. -/
def Plugins.named (c : Plugins T) (name : String) : Option (Loaded T) := c.items.lookup name

/-- `remove_named`, catalog.rs:99-101. -/
def Plugins.remove (c : Plugins T) (name : String) : Plugins T := { c with items := c.items.filter fun e => e.1 ≠ name }

end Catalog

end Xi
