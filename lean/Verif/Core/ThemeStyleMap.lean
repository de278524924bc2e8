import Verif.Core.Layers

/-!
# Model of `ThemeStyleMap` (`rust/core-lib/src/styles.rs`) and of the themes in `rust/core-lib/src/tabs.rs`

Themes are of any type; what is used of one is its foreground colour.  Binary dumps of themes
(styles.rs:300-325, 356-366) are not modelled: a dump is taken to have what the file has.
-/

namespace Xi

/-- A file of the themes' folder, as far as `file_stem` and `extension` tell. -/
structure ThemePath where
  dir : String
  stem : String
  ext : Option String
deriving DecidableEq, Repr

/-- `ThemeStyleMap`, styles.rs:152-171.  The maps are lists of entries, the last one inserted first.
`cacheDir` tells whether there is a directory for dumps. -/
structure ThemeStyleMap (Th : Type) where
  themes : List (String × Th)
  themeName : String
  theme : Th
  defaultThemes : List String
  defaultStyle : Style
  map : List (Style × Nat)
  pathMap : List (String × ThemePath)
  styles : List Style
  cacheDir : Bool

/-- `N_RESERVED_STYLES`, styles.rs:32. -/
def nReservedStyles : Nat := 8

/-- `DEFAULT_THEME`, styles.rs:35. -/
def defaultTheme : String := "InspiredGitHub"

/-- `Style::default_for_theme`, styles.rs:106-116; `foreground` is the colour, black if there is none (0xFF000000). -/
def Style.defaultForTheme {Th : Type} (foreground : Th → Option Nat) (theme : Th) : Style :=
  { priority := 0, fgColor := some ((foreground theme).getD 0xFF000000) }

namespace ThemeStyleMap

variable {Th : Type}

/-- `HashMap::get`, `BTreeMap::get`. -/
def get? {K V : Type} [DecidableEq K] (l : List (K × V)) (k : K) : Option V := (l.find? fun e => e.1 = k).map Prod.snd

/-- `HashMap::insert`, `BTreeMap::insert`. -/
def put {K V : Type} [DecidableEq K] (l : List (K × V)) (k : K) (v : V) : List (K × V) := (k, v) :: l.filter fun e => e.1 ≠ k

/-- `ThemeStyleMap::new`, styles.rs:174-196; `builtIn` are syntect's themes. -/
def new (foreground : Th → Option Nat) (builtIn : List (String × Th)) : Option (ThemeStyleMap Th) := do
  let theme ← get? builtIn defaultTheme
  return ⟨builtIn, defaultTheme, theme, builtIn.map Prod.fst, Style.defaultForTheme foreground theme, [], [], [], false⟩

/-- `get_theme_names`, styles.rs:214-216. -/
def themeNames (m : ThemeStyleMap Th) : List String := m.pathMap.map Prod.fst ++ m.defaultThemes

/-- `contains_theme`, styles.rs:218-220. -/
def containsTheme (m : ThemeStyleMap Th) (k : String) : Bool := (get? m.themes k).isSome

/-- `load_theme`, styles.rs:344-372; `read` is what reading a file gives.  The first component is
whether it went well. -/
def loadTheme (read : ThemePath → Option Th) (m : ThemeStyleMap Th) (name : String) : Bool × ThemeStyleMap Th :=
  if m.containsTheme name && m.themeName ≠ name then (true, m)
  else match get? m.pathMap name with
    | none => (false, m)
    | some p => match read p with
      | none => (false, m)
      | some th => (true, { m with themes := put m.themes name th })

/-- `set_theme`, styles.rs:222-241. -/
def setTheme (foreground : Th → Option Nat) (read : ThemePath → Option Th) (m : ThemeStyleMap Th) (name : String) : Bool × ThemeStyleMap Th :=
  match m.loadTheme read name with
  | (false, m) => (false, m)
  | (true, m) => match get? m.themes name with
    | none => (false, m)
    | some th => (true, { m with theme := th, themeName := name, defaultStyle := Style.defaultForTheme foreground th, map := [], styles := [] })

/-- `merge_with_default`, styles.rs:243-245. -/
def mergeWithDefault (m : ThemeStyleMap Th) (style : Style) : Style := m.defaultStyle.merge style

/-- `lookup`, styles.rs:247-249. -/
def lookup (m : ThemeStyleMap Th) (style : Style) : Option Nat := get? m.map style

/-- `add`, styles.rs:251-256. -/
def add (m : ThemeStyleMap Th) (style : Style) : Nat × ThemeStyleMap Th :=
  (m.styles.length + nReservedStyles, { m with map := put m.map style (m.styles.length + nReservedStyles), styles := m.styles ++ [style] })

/-- `get_or_def_style_id`, view.rs:734-743: the number, the new map, and what is told to the front
end by `def_style`: numbers with the styles they are to mean. -/
def getOrDef (m : ThemeStyleMap Th) (style : Style) : Nat × ThemeStyleMap Th × List (Nat × Style) :=
  match m.lookup style with
  | some ix => (ix, m, [])
  | none => ((m.add style).1, (m.add style).2, [((m.add style).1, (m.add style).2.mergeWithDefault style)])

/-- `validate_theme_file`, styles.rs:421-423: whether it is `Ok`.  The test for the extension only
makes the value in the `Ok`, at which nobody looks. -/
def validate (p : ThemePath) : Bool := p.ext.isSome

/-- `load_theme_info_from_path`, styles.rs:328-339. -/
def loadInfo (m : ThemeStyleMap Th) (p : ThemePath) : Option (String × ThemeStyleMap Th) :=
  if validate p then some (p.stem, { m with pathMap := put m.pathMap p.stem p }) else none

/-- `remove_theme`, styles.rs:259-272; the dump is left out. -/
def removeTheme (m : ThemeStyleMap Th) (p : ThemePath) : Option String × ThemeStyleMap Th :=
  if validate p then
    (if m.cacheDir then some p.stem else none, { m with themes := m.themes.filter fun e => e.1 ≠ p.stem, pathMap := m.pathMap.filter fun e => e.1 ≠ p.stem })
  else (none, m)

/-- `load_theme_dir`, styles.rs:275-294; `files` are the files of the folder with the extension
`tmTheme` (`discover_theme_paths`). -/
def loadDir (m : ThemeStyleMap Th) (files : List ThemePath) : ThemeStyleMap Th :=
  files.foldl (fun m p => ((m.loadInfo p).map Prod.snd).getD m) { m with cacheDir := true }

/-- `sync_dir`, styles.rs:385-402. -/
def syncDir (m : ThemeStyleMap Th) (files : List ThemePath) : ThemeStyleMap Th :=
  let old := m.pathMap.map Prod.snd
  let m := (files.filter fun p => p ∉ old).foldl (fun m p => ((m.loadInfo p).map Prod.snd).getD m) m
  (old.filter fun p => p ∉ files).foldl (fun m p => (m.removeTheme p).2) m

end ThemeStyleMap

end Xi
