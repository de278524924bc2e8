import Verif.Config.Manager

/-!
# Model of the files with settings: `rust/core-lib/src/config.rs` and `rust/core-lib/src/tabs.rs`

The files are a function from paths to contents; what the crate `toml` makes of a text is taken as given, and so is
the order in which the system reports changes.
-/

namespace Xi

namespace Config

/-! ## From TOML to JSON -/

/-- An `f64`, as far as it matters here: a finite one, or an infinite one, or none. -/
inductive Double where
  | finite (mantissa exponent : Int)
  | inf (negative : Bool)
  | nan
deriving DecidableEq

/-- `toml::Value`; a date is given by its text. -/
inductive Toml where
  | string (s : String)
  | float (d : Double)
  | integer (n : Int)
  | boolean (b : Bool)
  | datetime (s : String)
  | table (entries : List (String × Toml))
  | array (items : List Toml)

/-- `serde_json::Value`, with the two kinds of numbers that come from a file. -/
inductive Json where
  | null
  | bool (b : Bool)
  | int (n : Int)
  | double (mantissa exponent : Int)
  | string (s : String)
  | array (items : List Json)
  | object (entries : List (String × Json))

/-- `Value::from(f64)` of `serde_json`: a number, or null if there is none for it. -/
def Json.ofDouble : Double → Json
  | .finite m e => .double m e
  | .inf _ => .null
  | .nan => .null

mutual

/-- `from_toml_value`, config.rs:741-764. -/
def fromToml : Toml → Json
  | .string s => .string s
  | .float d => .ofDouble d
  | .integer n => .int n
  | .boolean b => .bool b
  | .datetime s => .string s
  | .table entries => .object (fromTomlEntries entries)
  | .array items => .array (fromTomlItems items)

/-- The loop over a table, config.rs:749-755. -/
def fromTomlEntries : List (String × Toml) → List (String × Json)
  | [] => []
  | (k, v) :: rest => (k, fromToml v) :: fromTomlEntries rest

/-- The loop over an array, config.rs:757-763. -/
def fromTomlItems : List Toml → List Json
  | [] => []
  | v :: rest => fromToml v :: fromTomlItems rest

end

/-! ## Names of files -/

/-- A path: the folder, and the name in it.  Names have no `/` in them and are not `.`. -/
structure FilePath where
  dir : List String
  name : List Char
deriving DecidableEq

/-- `Path::file_stem` and `Path::extension` of the standard library. -/
def stemExt (name : List Char) : List Char × Option (List Char) :=
  let ext := (name.reverse.takeWhile (· ≠ '.')).reverse
  let stem := name.take (name.length - ext.length - 1)
  if name = ['.', '.'] then (name, none)
  else if ext.length = name.length then (name, none)
  else if stem = [] then (name, none)
  else (stem, some ext)

/-- `Path::with_extension` of the standard library. -/
def withExtension (name ext : List Char) : List Char := (stemExt name).1 ++ '.' :: ext

variable {V : Type} [DecidableEq V]

/-- `ConfigDomain::file_stem`, config.rs:638-644. -/
def Domain.fileStem : Domain → String
  | .general => "preferences"
  | .language name => name
  | .userOverride _ => "we don't have files"
  | .sysOverride _ => "we don't have files"

/-- The path in `load_user_config_file`, config.rs:436-439.  `join` is for names that are not empty and have no `/`. -/
def configPath (dir : List String) (d : Domain) : FilePath := ⟨dir, withExtension d.fileStem.toList "xiconfig".toList⟩

/-- `ConfigManager::domain_for_path`, config.rs:498-512. -/
def Manager.domainForPath (m : Manager V) (p : FilePath) : Option Domain :=
  if (stemExt p.name).2 ≠ some "xiconfig".toList then none
  else
    let stem := String.ofList (stemExt p.name).1
    if stem = "preferences" then some .general
    else (m.languages.named.lookup stem).map fun lang => .language lang.name

/-- The files there are; of each the table that is in it, `none` if it cannot be read as one. -/
abbrev Files (V : Type) := FilePath → Option (Option (Table V))

/-- `load_user_config_file`, config.rs:435-452. -/
def loadUserConfigFile (files : Files V) (dir : List String) (d : Domain) : Option (Table V) := (files (configPath dir d)).join

/-! ## Following the files -/

/-- What comes of it: a message for the user, or changes for buffers (`handle_config_changes`, tabs.rs:255-266, is modelled with C76). -/
inductive Report (V : Type) where
  | alert
  | changes (l : List (Nat × Table V))

/-- `CoreState::set_config`, tabs.rs:247-252. -/
def Manager.setConfig (σ : Schema V) (m : Manager V) (d : Domain) (t : Table V) : Option (Manager V × List (Report V)) :=
  (m.setUserConfig σ d t).map fun r => match r.2 with
    | none => (r.1, [.alert])
    | some l => (r.1, [.changes l])

/-- `CoreState::load_file_based_config`, tabs.rs:234-244. -/
def Manager.loadFile (σ : Schema V) (files : Files V) (m : Manager V) (p : FilePath) : Option (Manager V × List (Report V)) :=
  match m.domainForPath p with
  | none => some (m, [.alert])
  | some d =>
    match (files p).join with
    | some t => m.setConfig σ d t
    | none => some (m, [.alert])

/-- `CoreState::remove_config_at_path`, tabs.rs:765-769. -/
def Manager.removeFile (σ : Schema V) (m : Manager V) (p : FilePath) : Option (Manager V × List (Report V)) :=
  match m.domainForPath p with
  | none => some (m, [])
  | some d => m.setConfig σ d []

/-- The kinds of events `handle_config_fs_event` (tabs.rs:745-763) tells apart. -/
inductive FileEvent where
  | written (p : FilePath)
  | removed (p : FilePath)
  | renamed (old new : FilePath)
  | other

/-- `handle_config_fs_event`, tabs.rs:745-763, when the files are `files`. -/
def Manager.handleFileEvent (σ : Schema V) (files : Files V) (m : Manager V) : FileEvent → Option (Manager V × List (Report V))
  | .written p => m.loadFile σ files p
  | .removed p => if (files p).isNone then m.removeFile σ p else some (m, [])
  | .renamed old new => do
    let (m, r1) ← m.removeFile σ old
    let (m, r2) ← m.loadFile σ files new
    return (m, r1 ++ r2)
  | .other => some (m, [])

/-- The part of `finish_setup` that is about settings, tabs.rs:203-207 and 212-217, with `base_config_file_path`, config.rs:256-264.
`defs` are the languages of the plugins. -/
def Manager.finishSetup (σ : Schema V) (files : Files V) (dir : List String) (m : Manager V) (defs : List (LanguageDef V)) : Option (Manager V) := do
  let general : FilePath := ⟨dir, "preferences.xiconfig".toList⟩
  let m ← if (files general).isSome then (m.loadFile σ files general).map (·.1) else some m
  m.setLanguages σ (fun n => loadUserConfigFile files dir (.language n)) (Languages.new defs)

/-- The file with a plugin's settings for a language, in the folder of the plugin: catalog.rs:137-138 (`load_manifest`). -/
def pluginSettingsPath (dir : List String) (language : String) : FilePath := ⟨dir, withExtension language.toList "toml".toList⟩

end Config

end Xi
