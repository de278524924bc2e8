/-!
# Flags and the log of the program

Model of `rust/src/main.rs`: the flags of the command line, the variables of the environment, and where the log goes.  Strings are lists of
characters; arguments that are not Unicode, on which `std::env::args` panics, are left out.
-/

namespace Xi

namespace Logging

/-- Strings. -/
abbrev Str := List Char

/-- A path as `Path::components` sees it on Unix: whether it begins at the root, and its parts. -/
structure LogPath where
  root : Bool
  parts : List Str
deriving DecidableEq, Repr

/-- The pieces of a string between slashes. -/
def pieces : Str → List Str
  | [] => [[]]
  | c :: cs =>
    if c = '/' then [] :: pieces cs
    else
      match pieces cs with
      | [] => [[c]]
      | p :: ps => (c :: p) :: ps

/-- `PathBuf::from`, by components: empty pieces do not count, and `.` does only at the start. -/
def LogPath.ofStr (s : Str) : LogPath :=
  match pieces s with
  | [] => ⟨false, []⟩
  | p :: ps =>
    let rest := ps.filter fun q => q ≠ [] && q ≠ ['.']
    if p = [] then ⟨s.head? = some '/', rest⟩ else ⟨false, p :: rest⟩

/-- `PathBuf::push` of the standard library, on Unix: a path from the root takes the place of what was there. -/
def LogPath.push (p q : LogPath) : LogPath :=
  if q.root then q
  else if p = ⟨false, []⟩ then q
  else ⟨p.root, p.parts ++ q.parts.filter (· ≠ ['.'])⟩

/-- `Path::parent`. -/
def LogPath.parent (p : LogPath) : Option LogPath := if p.parts = [] then none else some ⟨p.root, p.parts.dropLast⟩

/-- `starts_with(flag_prefix)`, main.rs:158-161. -/
def isFlag (arg : Str) : Bool := arg.head? = some '-'

/-- `trim_start_matches(flag_prefix)`, main.rs:162. -/
def keyOf (arg : Str) : Str := arg.dropWhile (· = '-')

/-- `get_flags`, main.rs:155-174; `flags` is the map, with what was inserted last at the front. -/
def getFlags : List Str → List (Str × Option Str) → List (Str × Option Str)
  | [], flags => flags
  | [_], flags => flags
  | arg :: next :: rest, flags =>
    if isFlag arg then
      if !isFlag next then getFlags rest ((keyOf arg, some next) :: flags) else getFlags (next :: rest) flags
    else getFlags (next :: rest) flags

/-- `extract_env_or_flag`, main.rs:184-189; `env` are the variables of the environment. -/
def extract (flags : List (Str × Option Str)) (env : Str → Option Str) (envName flagName : Str) : Option Str :=
  match flags.lookup flagName with
  | some value => value
  | none => env envName

/-- `struct LogfileConfig`, main.rs:191-194. -/
structure LogfileConfig where
  directory : Option LogPath
  file : Option LogPath

/-- `generate_logfile_config`, main.rs:196-205. -/
def logfileConfig (flags : List (Str × Option Str)) (env : Str → Option Str) : LogfileConfig :=
  { directory := (extract flags env "XI_LOG_DIR".toList "log-dir".toList).map .ofStr
    file := (extract flags env "XI_LOG_FILE".toList "log-file".toList).map .ofStr }

/-- `get_logging_directory_path`, main.rs:36-47; `data` is `dirs::data_local_dir()`. -/
def directoryPath (data : Option LogPath) (directory : LogPath) : Option LogPath := data.map (·.push directory)

/-- `generate_logging_path`, main.rs:133-153; `none` is an error. -/
def loggingPath (data : Option LogPath) (cfg : LogfileConfig) : Option LogPath :=
  let file := cfg.file.getD (.ofStr "xi-core.log".toList)
  if file = .ofStr [] then none
  else
    let directory := cfg.directory.getD (.ofStr "xi-core".toList)
    (directoryPath data directory).map (·.push file)

/-- What the file system allows: to make a directory with those above it, and to open a file for the log. -/
structure Disk where
  makeDirs : LogPath → Bool
  openLog : LogPath → Bool

/-- `create_log_directory`, main.rs:78-88; whether there is no error. -/
def createLogDirectory (disk : Disk) (path : LogPath) : Bool :=
  match path.parent with
  | none => false
  | some dir => disk.makeDirs dir

/-- The levels of `log::LevelFilter` that are used. -/
inductive Level where
  | info
  | debug
  | trace
deriving DecidableEq, Repr

/-- The level of the log, main.rs:91-99; `lower` is `str::to_lowercase`. -/
def levelOf (lower : Str → Str) : Option Str → Level
  | none => .info
  | some level => if lower level = "trace".toList then .trace else if lower level = "debug".toList then .debug else .info

/-- Where the log goes. -/
structure Sinks where
  stderr : Bool
  file : Option LogPath
deriving DecidableEq, Repr

/-- `setup_logging`, main.rs:90-131, but for the level: an error comes before `apply`, so that there is no log then.  `apply` fails only if there
is a log already, which is left out. -/
def setupLogging (disk : Disk) : Option LogPath → Sinks
  | none => ⟨true, none⟩
  | some path => if createLogDirectory disk path && disk.openLog path then ⟨true, some path⟩ else ⟨false, none⟩

/-- The start of `main`, main.rs:213-224. -/
def start (disk : Disk) (data : Option LogPath) (env : Str → Option Str) (args : List Str) : Sinks :=
  setupLogging disk (loggingPath data (logfileConfig (getFlags args []) env))

end Logging

end Xi
