import Verif.Core.ThemeStyleMap

/-!
# Model of the themes in `rust/core-lib/src/tabs.rs`: choosing one, and following the files of the themes' folder

The files are a list of paths with their contents: the theme that syntect reads there, if it can.
-/

namespace Xi

/-- The files of the themes' folder. -/
abbrev ThemeFiles (Th : Type) := List (ThemePath × Option Th)

/-- `ThemeSet::get_theme` of syntect, as called at styles.rs:359. -/
def ThemeFiles.read {Th : Type} (files : ThemeFiles Th) (p : ThemePath) : Option Th := (ThemeStyleMap.get? files p).join

/-- `ThemeSet::discover_theme_paths` of syntect: the files with the extension `tmTheme`. -/
def ThemeFiles.discover {Th : Type} (files : ThemeFiles Th) : List ThemePath := (files.map Prod.fst).filter fun p => p.ext = some "tmTheme"

namespace ThemeStyleMap

variable {Th : Type}

/-- `do_set_theme`, tabs.rs:445-455.  The first component is whether the front end is told and the
views are drawn again (`notify_client_and_update_views`). -/
def doSetTheme (foreground : Th → Option Nat) (files : ThemeFiles Th) (m : ThemeStyleMap Th) (name : String) : Bool × ThemeStyleMap Th :=
  if name ≠ m.themeName then m.setTheme foreground files.read name else (true, m)

/-- `load_theme_file`, tabs.rs:853-867. -/
def loadThemeFile (foreground : Th → Option Nat) (files : ThemeFiles Th) (m : ThemeStyleMap Th) (p : ThemePath) : Bool × ThemeStyleMap Th :=
  match m.loadInfo p with
  | none => (false, m)
  | some (name, m) => if name = m.themeName then m.setTheme foreground files.read name else (false, m)

/-- `CoreState::remove_theme`, tabs.rs:869-879. -/
def removeThemeFile (foreground : Th → Option Nat) (files : ThemeFiles Th) (m : ThemeStyleMap Th) (p : ThemePath) : Bool × ThemeStyleMap Th :=
  match m.removeTheme p with
  | (none, m) => (false, m)
  | (some name, m) => if name = m.themeName then m.doSetTheme foreground files defaultTheme else (false, m)

end ThemeStyleMap

/-- What `handle_themes_fs_event` (tabs.rs:825-850) tells apart: a file was made or changed, is gone, was given another name, or something else
happened to one (its attributes changed, or it was removed but is there). -/
inductive ThemeEvent where
  | written (p : ThemePath)
  | removed (p : ThemePath)
  | renamed (old new : ThemePath)
  | touched (p : ThemePath)
deriving DecidableEq

/-- `handle_themes_fs_event`, tabs.rs:825-850, when the folder has the files `files`; a removed file that is there is `touched`.  The list of themes that is sent
afterwards is `themeNames`.  The folder is taken to be all there is, so that `touched` looks at all files. -/
def handleThemesEvent {Th : Type} (foreground : Th → Option Nat) (files : ThemeFiles Th) (m : ThemeStyleMap Th) : ThemeEvent → Bool × ThemeStyleMap Th
  | .written p => m.loadThemeFile foreground files p
  | .removed p => if (ThemeStyleMap.get? files p).isSome then (false, m.syncDir files.discover) else m.removeThemeFile foreground files p
  | .renamed old new =>
    let r := m.removeThemeFile foreground files old
    let r' := r.2.loadThemeFile foreground files new
    (r.1 || r'.1, r'.2)
  | .touched _ => (false, m.syncDir files.discover)

end Xi
