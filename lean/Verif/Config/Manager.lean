/-!
# Model of `rust/core-lib/src/config.rs` and of the languages of `rust/core-lib/src/syntax.rs`

Maps are lists of pairs; a key is looked up from the front.  In the code a key occurs once in a map,
so the order of iteration does not matter; here loops over a map that is given from outside run from
the back, so that of several entries the one that is looked up wins.

The values of settings are of any type `V`.  What `serde_json::from_value` accepts as `BufferItems` is a
parameter (`Schema`): the fields of `BufferItems`, and for each of them the values it accepts.

A function that can panic returns `Option`.
-/

namespace Xi

namespace Config

/-- A map, as a list of pairs. -/
abbrev Map (K V : Type) := List (K × V)

/-- `HashMap::insert`, `Map::insert` (standard library, `serde_json`). -/
def set {K V : Type} [DecidableEq K] (m : Map K V) (k : K) (v : V) : Map K V := (k, v) :: m.filter (fun e => e.1 != k)

/-- `HashMap::remove`, `Map::remove`. -/
def unset {K V : Type} [DecidableEq K] (m : Map K V) (k : K) : Map K V := m.filter (fun e => e.1 != k)

/-- `Table`, config.rs:60. -/
abbrev Table (V : Type) := Map String V

/-- `BufferItems`, config.rs:172-189, with `deserialize_tab_size`, config.rs:157-170: the fields, and the
values each accepts; and the value `Value::Null`. -/
structure Schema (V : Type) where
  null : V
  fields : List String
  ok : String → V → Bool

variable {V : Type} [DecidableEq V]

/-- Whether `serde_json::from_value` gives a `BufferItems`: every field is there and has a good value.  Other
keys are ignored. -/
def Schema.accepts (σ : Schema V) (t : Table V) : Bool :=
  σ.fields.all fun k => match t.lookup k with
    | some v => σ.ok k v
    | none => false

/-- `ConfigDomain`, config.rs:65-75. -/
inductive Domain where
  | general
  | language (name : String)
  | userOverride (buffer : Nat)
  | sysOverride (buffer : Nat)
deriving DecidableEq

/-- `ConfigPair`, config.rs:105-113. -/
structure Pair (V : Type) where
  base : Option (Table V)
  user : Option (Table V)
  cache : Table V

/-- `ConfigPair::with_base`, config.rs:195-199. -/
def Pair.withBase (base : Option (Table V)) : Pair V := ⟨base, none, base.getD []⟩

/-- The loop of `rebuild`, config.rs:233-235. -/
def insertAll (m : Table V) (user : Table V) : Table V := user.foldr (fun e m => set m e.1 e.2) m

/-- `ConfigPair::rebuild`, config.rs:230-238. -/
def Pair.rebuild (p : Pair V) : Pair V :=
  { p with cache := match p.user with
    | some user => insertAll (p.base.getD []) user
    | none => p.base.getD [] }

/-- `ConfigPair::new_with_base`, config.rs:203-208. -/
def Pair.newWithBase (p : Pair V) (base : Option (Table V)) : Pair V := Pair.rebuild { Pair.withBase base with user := p.user }

/-- `ConfigPair::set_table`, config.rs:210-213. -/
def Pair.setTable (p : Pair V) (user : Table V) : Pair V := Pair.rebuild { p with user := some user }

/-- One entry of `table_for_update`, config.rs:220-226. -/
def updateEntry (null : V) (e : String × V) (m : Table V) : Table V := if e.2 = null then unset m e.1 else set m e.1 e.2

/-- `ConfigPair::table_for_update`, config.rs:217-228. -/
def Pair.tableForUpdate (null : V) (p : Pair V) (changes : Table V) : Table V := changes.foldr (updateEntry null) (p.user.getD [])

/-- One table of `TableStack::collate`, config.rs:572-578. -/
def collateTable (out : Table V) (t : Table V) : Table V :=
  t.foldl (fun out e => if (out.lookup e.1).isSome then out else set out e.1 e.2) out

/-- `TableStack::collate`, config.rs:567-581. -/
def collate (stack : List (Table V)) : Table V := stack.foldl collateTable []

/-- `Config<BufferItems>`, config.rs:148-155.  The items are those of the collated table. -/
structure BufferConfig (V : Type) where
  source : List (Table V)

/-- `TableStack::into_config`, config.rs:584-592. -/
def intoConfig (σ : Schema V) (stack : List (Table V)) : Option (BufferConfig V) :=
  if σ.accepts (collate stack) then some ⟨stack⟩ else none

/-- `TableStack::get`, config.rs:596-603. -/
def stackGet (stack : List (Table V)) (k : String) : Option V := stack.findSome? (·.lookup k)

/-- `TableStack::diff`, config.rs:607-617. -/
def diff (self other : List (Table V)) : Option (Table V) :=
  let out := (collate self).filter fun e => decide (stackGet other e.1 ≠ some e.2)
  if out.isEmpty then none else some out

/-- `Config::to_table`, config.rs:621-623. -/
def BufferConfig.toTable (c : BufferConfig V) : Table V := collate c.source

/-- `Config::changes_from`, config.rs:629-634. -/
def BufferConfig.changesFrom (c : BufferConfig V) (other : Option (BufferConfig V)) : Option (Table V) :=
  match other with
  | some other => diff c.source other.source
  | none => some (collate c.source)

/-- `LanguageTag`, config.rs:118-121. -/
structure Tag where
  detected : String
  user : Option String

/-- `LanguageTag::resolve`, config.rs:652-654. -/
def Tag.resolve (t : Tag) : String := t.user.getD t.detected

/-- `LanguageTag::set_detected`, config.rs:658-662. -/
def Tag.setDetected (t : Tag) (detected : String) : Tag × Bool :=
  let t' := { t with detected := detected }
  (t', t.resolve != t'.resolve)

/-- `LanguageTag::set_user`, config.rs:667-671. -/
def Tag.setUser (t : Tag) (user : Option String) : Tag × Bool := ({ t with user := user }, t.user != user)

/-- `LanguageDefinition`, syntax.rs:34-41, the parts used. -/
structure LanguageDef (V : Type) where
  name : String
  extensions : List String
  defaults : Option (Table V)

/-- `Languages`, syntax.rs:45-49. -/
structure Languages (V : Type) where
  named : Map String (LanguageDef V)
  extensions : Map String (LanguageDef V)

/-- One definition of `Languages::new`, syntax.rs:54-60. -/
def Languages.add (l : Languages V) (d : LanguageDef V) : Languages V :=
  ⟨set l.named d.name d, d.extensions.foldl (fun m e => set m e d) l.extensions⟩

/-- `Languages::new`, syntax.rs:52-63. -/
def Languages.new (defs : List (LanguageDef V)) : Languages V := defs.foldl Languages.add ⟨[], []⟩

/-- `Languages::difference`, syntax.rs:81-87. -/
def Languages.difference (l other : Languages V) : List (LanguageDef V) :=
  (l.named.filter fun e => (other.named.lookup e.1).isNone).map (·.2)

/-- `ConfigManager`, config.rs:124-139, without the directories. -/
structure Manager (V : Type) where
  configs : Map Domain (Pair V)
  languages : Languages V
  tags : Map Nat Tag
  buffers : Map Nat (BufferConfig V)

/-- `ConfigManager::new`, config.rs:242-254, with the base configuration. -/
def Manager.new (defaults : Table V) : Manager V := ⟨[(.general, Pair.withBase (some defaults))], ⟨[], []⟩, [], []⟩

/-- `ConfigManager::language_for_path`, config.rs:454-456, and syntax.rs:64-69.  Of a path only its extension, or
its name if it has none, is given. -/
def Manager.languageForPath (m : Manager V) (ext : String) : Option String := (m.languages.extensions.lookup ext).map (·.name)

/-- The language of `generate_buffer_config`, config.rs:360-365. -/
def Manager.loadedLanguage (m : Manager V) (id : Nat) : Option String :=
  ((m.tags.lookup id).map Tag.resolve).bind fun name => (m.languages.named.lookup name).map (·.name)

/-- The tables for a buffer, config.rs:366-380. -/
def Manager.stack (m : Manager V) (id : Nat) : List (Table V) :=
  let configs := [m.configs.lookup .general]
    ++ (match m.loadedLanguage id with
      | some s => [m.configs.lookup (.language s)]
      | none => [])
    ++ [m.configs.lookup (.sysOverride id), m.configs.lookup (.userOverride id)]
  ((configs.filterMap fun c => c).map (·.cache)).reverse

/-- `ConfigManager::generate_buffer_config`, config.rs:358-384. -/
def Manager.generate (σ : Schema V) (m : Manager V) (id : Nat) : Option (BufferConfig V) := intoConfig σ (m.stack id)

/-- `ConfigManager::update_buffer_config`, config.rs:341-346. -/
def Manager.updateBuffer (σ : Schema V) (m : Manager V) (id : Nat) : Option (Manager V × Option (Table V)) := do
  let new ← m.generate σ id
  return ({ m with buffers := set m.buffers id new }, new.changesFrom (m.buffers.lookup id))

/-- The loop of `update_all_buffer_configs`, config.rs:348-356. -/
def Manager.updateLoop (σ : Schema V) : List Nat → Manager V → Option (Manager V × List (Nat × Table V))
  | [], m => some (m, [])
  | k :: ks, m => do
    let (m, c) ← m.updateBuffer σ k
    let (m, out) ← Manager.updateLoop σ ks m
    return (m, match c with
      | some c => (k, c) :: out
      | none => out)

/-- `ConfigManager::update_all_buffer_configs`, config.rs:348-356. -/
def Manager.updateAll (σ : Schema V) (m : Manager V) : Option (Manager V × List (Nat × Table V)) :=
  Manager.updateLoop σ (m.buffers.map (·.1)) m

/-- `ConfigManager::add_buffer`, config.rs:286-292. -/
def Manager.addBuffer (σ : Schema V) (m : Manager V) (id : Nat) (path : Option String) : Option (Manager V × Table V) := do
  let lang := (path.bind m.languageForPath).getD "Plain Text"
  if (m.tags.lookup id).isSome then none
  let (m, c) ← Manager.updateBuffer σ { m with tags := set m.tags id ⟨lang, none⟩ } id
  return (m, ← c)

/-- `ConfigManager::update_buffer_path`, config.rs:299-309. -/
def Manager.updatePath (σ : Schema V) (m : Manager V) (id : Nat) (path : String) : Option (Manager V × Option (Table V)) := do
  let tag ← m.tags.lookup id
  let (tag, changed) := tag.setDetected ((m.languageForPath path).getD "")
  let m := { m with tags := set m.tags id tag }
  if changed then m.updateBuffer σ id else return (m, none)

/-- `ConfigManager::remove_buffer`, config.rs:316-320. -/
def Manager.removeBuffer (m : Manager V) (id : Nat) : Option (Manager V) := do
  let _ ← m.tags.lookup id
  return { m with tags := unset m.tags id, buffers := unset m.buffers id }

/-- `ConfigManager::override_language`, config.rs:324-339. -/
def Manager.overrideLanguage (σ : Schema V) (m : Manager V) (id : Nat) (lang : String) : Option (Manager V × Option (Table V)) := do
  let tag ← m.tags.lookup id
  let (tag, changed) := tag.setUser (some lang)
  let m := { m with tags := set m.tags id tag }
  if changed then m.updateBuffer σ id else return (m, none)

/-- `ConfigManager::check_table`, config.rs:514-530. -/
def Manager.checkTable (σ : Schema V) (m : Manager V) (t : Table V) : Option Bool := do
  let defaults ← (m.configs.lookup .general).bind (·.base)
  return σ.accepts (insertAll defaults (t.filter fun e => decide (e.2 ≠ σ.null)))

/-- `ConfigManager::set_user_config`, config.rs:461-469; `Err` is `none`. -/
def Manager.setUserConfig (σ : Schema V) (m : Manager V) (domain : Domain) (config : Table V) : Option (Manager V × Option (List (Nat × Table V))) := do
  if ← m.checkTable σ config then
    let pair := (m.configs.lookup domain).getD (Pair.withBase none)
    let (m, out) ← Manager.updateAll σ { m with configs := set m.configs domain (pair.setTable config) }
    return (m, some out)
  else return (m, none)

/-- `ConfigManager::table_for_update`, config.rs:490-495; it also makes an entry for the domain. -/
def Manager.tableForUpdate (σ : Schema V) (m : Manager V) (domain : Domain) (changes : Table V) : Manager V × Table V :=
  let pair := (m.configs.lookup domain).getD (Pair.withBase none)
  ({ m with configs := if (m.configs.lookup domain).isSome then m.configs else set m.configs domain pair }, pair.tableForUpdate σ.null changes)

/-- The removed languages, config.rs:408-413. -/
def dropBase (configs : Map Domain (Pair V)) (lang : LanguageDef V) : Map Domain (Pair V) :=
  match configs.lookup (.language lang.name) with
  | some pair => set configs (.language lang.name) (pair.newWithBase none)
  | none => configs

/-- The default configuration of a language, config.rs:416-422. -/
def putBase (configs : Map Domain (Pair V)) (lang : LanguageDef V) : Map Domain (Pair V) :=
  match configs.lookup (.language lang.name) with
  | some pair => set configs (.language lang.name) (pair.newWithBase lang.defaults)
  | none => set configs (.language lang.name) (Pair.withBase lang.defaults)

/-- One language of `set_languages`, config.rs:415-428; `file` is what `load_user_config_file` gives for it. -/
def Manager.setLanguage (σ : Schema V) (files : String → Option (Table V)) (m : Manager V) (lang : LanguageDef V) : Option (Manager V) := do
  let m := { m with configs := putBase m.configs lang }
  match files lang.name with
  | some table => return (← m.setUserConfig σ (.language lang.name) table).1
  | none => return m

/-- `ConfigManager::set_languages`, config.rs:406-433. -/
def Manager.setLanguages (σ : Schema V) (files : String → Option (Table V)) (m : Manager V) (languages : Languages V) : Option (Manager V) := do
  let m := { m with configs := (m.languages.difference languages).foldl dropBase m.configs }
  let m ← (languages.named.map (·.2)).foldlM (Manager.setLanguage σ files) m
  return (← Manager.updateAll σ { m with languages := languages }).1

end Config

end Xi
