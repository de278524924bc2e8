import Verif.Rpc.Parse
import Verif.Rope.Delta

/-!
# Messages written and read by hand

Model of the `Serialize` and `Deserialize` instances that are not derived: `core-lib/src/tabs.rs`,
`core-lib/src/rpc.rs`, `core-lib/src/plugins/rpc.rs`, `core-lib/src/annotations.rs`,
`rope/src/serde_impls.rs` and `trace/src/lib.rs`.

All of them go to and from a `serde_json::Value`.  What `serde` derives is modelled as far as these instances
use it: a struct is read from an object, whatever else is in it, or from an array of just its fields; a missing
`Option` field and `null` are `None`; a variant with data is an object with just one key.
Reading that can panic gives an `Option (Option α)`: the outer `none` is the panic, the inner one an `Err`.
-/

namespace Xi

namespace Wire

open Rpc (Json)

/-- Elements read one after the other, as `Vec::deserialize` does. -/
def readAll {α : Type} (read : Json → Option α) : List Json → Option (List α)
  | [] => some []
  | j :: js => do
    let x ← read j
    let xs ← readAll read js
    return x :: xs

/-- `Option<T>`, as a field of a struct: the field may be missing or `null`. -/
def readOption {α : Type} (read : Json → Option α) : Option Json → Option (Option α)
  | none => some none
  | some .null => some none
  | some j => (read j).map some

/-! ## Ids of views -/

/-- The text before the number, tabs.rs:1064 and 1083. -/
def idPrefix : List Char := "view-id-".toList

/-- `impl fmt::Display for ViewId`, tabs.rs:1062-1066. -/
def viewIdText (id : Nat) : List Char := idPrefix ++ Nat.toDigits 10 id

/-- `impl Serialize for ViewId`, tabs.rs:1068-1075. -/
def viewIdJson (id : Nat) : Json := .str (String.ofList (viewIdText id))

/-- `s.trim_start_matches("view-id-")`: the prefix is taken off as long as there is one. -/
def trimPrefix (s : List Char) : List Char :=
  if idPrefix.isPrefixOf s then trimPrefix (s.drop 8) else s
termination_by s.length
decreasing_by
  have h := ‹idPrefix.isPrefixOf s = true›
  cases s with
  | nil => exact absurd h (by decide)
  | cons c s => simp only [List.length_drop, List.length_cons]; omega

/-- `char::to_digit(10)`. -/
def toDigit (c : Char) : Option Nat :=
  if '0'.toNat ≤ c.toNat ∧ c.toNat ≤ '9'.toNat then some (c.toNat - '0'.toNat) else none

/-- The loop of `usize::from_str_radix`, with `checked_mul` and `checked_add`. -/
def parseDigits : Nat → List Char → Option Nat
  | n, [] => some n
  | n, c :: cs =>
    match toDigit c with
    | none => none
    | some d => if n * 10 < 2 ^ 64 ∧ n * 10 + d < 2 ^ 64 then parseDigits (n * 10 + d) cs else none

/-- `usize::from_str_radix(s, 10)`: a sign `+` is allowed, a sign alone is not. -/
def parseUsize : List Char → Option Nat
  | [] => none
  | ['+'] => none
  | ['-'] => none
  | '+' :: cs => parseDigits 0 cs
  | cs => parseDigits 0 cs

/-- `impl Deserialize for ViewId`, tabs.rs:1077-1089. -/
def viewIdOf : Json → Option Nat
  | .str s => parseUsize (trimPrefix s.toList)
  | _ => none

/-! ## Commands for a view -/

/-- `map[key] = value` for a map. -/
def setKey (key : String) (value : Json) : List (String × Json) → List (String × Json)
  | [] => [(key, value)]
  | (k, v) :: rest => if k = key then (k, value) :: rest else (k, v) :: setKey key value rest

/-- `v[key] = value` for a `Value`: `null` becomes an object, and other values that are no objects panic. -/
def setField (key : String) (value : Json) : Json → Option Json
  | .null => some (.obj [(key, value)])
  | .obj fields => some (.obj (setKey key value fields))
  | _ => none

/-- `struct EditCommand`, core-lib/rpc.rs:282-285. -/
structure EditCommand (τ : Type) where
  viewId : Nat
  cmd : τ

/-- `impl Serialize for EditCommand`, core-lib/rpc.rs:550-559.  `write` is that of the command. -/
def editJson {τ : Type} (write : τ → Json) (c : EditCommand τ) : Option Json :=
  setField "view_id" (viewIdJson c.viewId) (write c.cmd)

/-- `InnerId::deserialize`, core-lib/rpc.rs:566-569. -/
def innerId : Json → Option Nat
  | .obj fields => (fields.lookup "view_id").bind viewIdOf
  | .arr [j] => viewIdOf j
  | _ => none

/-- `v.remove("params")`, core-lib/rpc.rs:587-589. -/
def removeParams : Json → Json
  | .obj fields => .obj (fields.filter fun f => f.1 ≠ "params")
  | v => v

/-- `remove_params`, core-lib/rpc.rs:576-585; an inner `none` is the error. -/
def mustRemove {τ : Type} (read : Json → Option (Option τ)) (v : Json) : Option (Option Bool) :=
  match v.get "params" with
  | some (.obj fields) => if fields.isEmpty then (read v).map fun r => some r.isNone else some (some false)
  | some (.arr xs) => if xs.isEmpty then (read v).map fun r => some r.isNone else some (some false)
  | some _ => some none
  | none => some (some false)

/-- `impl Deserialize for EditCommand`, core-lib/rpc.rs:561-594.  `read` is that of the command. -/
def editOf {τ : Type} (read : Json → Option (Option τ)) (v : Json) : Option (Option (EditCommand τ)) :=
  match innerId v with
  | none => some none
  | some id =>
    match mustRemove read v with
    | none => none
    | some none => some none
    | some (some b) => (read (if b then removeParams v else v)).map fun r => r.map fun cmd => ⟨id, cmd⟩

/-- `struct PluginCommand`, plugins/rpc.rs:248-252. -/
structure PluginCommand (τ : Type) where
  viewId : Nat
  pluginId : Nat
  cmd : τ

/-- `v["params"][key] = value`. -/
def setParam (key : String) (value : Json) : Json → Option Json
  | .null => some (.obj [("params", .obj [(key, value)])])
  | .obj fields =>
    (setField key value ((fields.lookup "params").getD .null)).map fun p => .obj (setKey "params" p fields)
  | _ => none

/-- `impl Serialize for PluginCommand`, plugins/rpc.rs:254-264. -/
def pluginJson {τ : Type} (write : τ → Json) (c : PluginCommand τ) : Option Json := do
  let v ← setParam "view_id" (viewIdJson c.viewId) (write c.cmd)
  setParam "plugin_id" (.nat c.pluginId) v

/-- `InnerIds::deserialize`, plugins/rpc.rs:271-275.  The id of a plugin is a number, plugins/mod.rs:48-51. -/
def innerIds : Json → Option (Nat × Nat)
  | .obj fields => do
    let id ← (fields.lookup "view_id").bind viewIdOf
    let plugin ← (fields.lookup "plugin_id").bind Json.asU64
    return (id, plugin)
  | .arr [a, b] => do return (← viewIdOf a, ← b.asU64)
  | _ => none

/-- `IdsWrapper::deserialize`, plugins/rpc.rs:276-279. -/
def idsWrapper : Json → Option (Nat × Nat)
  | .obj fields => (fields.lookup "params").bind innerIds
  | .arr [j] => innerIds j
  | _ => none

/-- `impl Deserialize for PluginCommand`, plugins/rpc.rs:266-287. -/
def pluginOf {τ : Type} (read : Json → Option (Option τ)) (v : Json) : Option (Option (PluginCommand τ)) :=
  match idsWrapper v with
  | none => some none
  | some (id, plugin) => (read v).map fun r => r.map fun cmd => ⟨id, plugin, cmd⟩

/-! ## Places -/

/-- `struct MouseAction`, core-lib/rpc.rs:334-339. -/
structure MouseAction where
  line : Nat
  column : Nat
  flags : Nat
  clickCount : Option Nat
deriving DecidableEq, Repr

/-- `impl Serialize for MouseAction`, core-lib/rpc.rs:596-607. -/
def mouseJson (m : MouseAction) : Json :=
  .arr [.nat m.line, .nat m.column, .nat m.flags, (match m.clickCount with | some c => .nat c | none => .null)]

/-- `impl Deserialize for MouseAction`, core-lib/rpc.rs:609-618. -/
def mouseOf : Json → Option (Option MouseAction)
  | .arr js =>
    match readAll Json.asU64 js with
    | none => some none
    | some v => do
      let clickCount := if v.length = 4 then v[3]? else none
      let line ← v[0]?
      let column ← v[1]?
      let flags ← v[2]?
      return some ⟨line, column, flags, clickCount⟩
  | _ => some none

/-- `struct LineRange`, core-lib/rpc.rs:325-328. -/
structure LineRange where
  first : Int
  last : Int
deriving DecidableEq, Repr

/-- `impl Serialize for LineRange`, core-lib/rpc.rs:620-628. -/
def lineRangeJson (r : LineRange) : Json := .arr [.ofI64 r.first, .ofI64 r.last]

/-- `impl Deserialize for LineRange`, core-lib/rpc.rs:630-641. -/
def lineRangeOf : Json → Option LineRange
  | .arr [a, b] => do return ⟨← a.asI64, ← b.asI64⟩
  | _ => none

/-- `struct AnnotationRange`, annotations.rs:49-54. -/
structure AnnotationRange where
  startLine : Nat
  startCol : Nat
  endLine : Nat
  endCol : Nat
deriving DecidableEq, Repr

/-- `impl Serialize for AnnotationRange`, annotations.rs:56-68. -/
def annotationRangeJson (r : AnnotationRange) : Json :=
  .arr [.nat r.startLine, .nat r.startCol, .nat r.endLine, .nat r.endCol]

/-- `impl Deserialize for AnnotationRange`, annotations.rs:70-85. -/
def annotationRangeOf : Json → Option AnnotationRange
  | .arr [a, b, c, d] => do return ⟨← a.asU64, ← b.asU64, ← c.asU64, ← d.asU64⟩
  | _ => none

/-- Some of the variants of `EditNotification`, core-lib/rpc.rs:380-383, 433-448: one of each kind. -/
inductive EditNotification where
  | undo
  | scroll (r : LineRange)
  | gotoLine (line : Nat)
  | click (m : MouseAction)
deriving DecidableEq, Repr

/-- The derived `Serialize` for `EditNotification`, with `method` and `params`, core-lib/rpc.rs:380-383. -/
def notificationJson : EditNotification → Json
  | .undo => .obj [("method", .str "undo")]
  | .scroll r => .obj [("method", .str "scroll"), ("params", lineRangeJson r)]
  | .gotoLine n => .obj [("method", .str "goto_line"), ("params", .obj [("line", .nat n)])]
  | .click m => .obj [("method", .str "click"), ("params", mouseJson m)]

/-- The derived `Deserialize` for `EditNotification`, core-lib/rpc.rs:380-383, from an object. -/
def notificationOf : Json → Option (Option EditNotification)
  | .obj fields =>
    match (fields.lookup "method").bind Json.asStr, fields.lookup "params" with
    | none, _ => some none
    | some m, params =>
      if m = "undo" then
        match params with
        | none => some (some .undo)
        | some .null => some (some .undo)
        | some _ => some none
      else if m = "scroll" then some ((params.bind lineRangeOf).map .scroll)
      else if m = "goto_line" then
        match params with
        | some (.obj p) => some (((p.lookup "line").bind Json.asU64).map .gotoLine)
        | some (.arr [j]) => some (j.asU64.map .gotoLine)
        | _ => some none
      else if m = "click" then
        match params with
        | some j => (mouseOf j).map fun r => r.map .click
        | none => some none
      else some none
  | _ => some none

/-! ## Edits -/

/-- `impl Serialize for DeltaElement`, serde_impls.rs:59-76, with `impl Serialize for Rope`, serde_impls.rs:24-31.
The text is given by its characters. -/
def elementJson : DeltaElement Char → Json
  | .copy b e => .obj [("copy", .arr [.nat b, .nat e])]
  | .insert s => .obj [("insert", .str (String.ofList s))]

/-- `impl Serialize for Delta`, serde_impls.rs:78-88. -/
def deltaJson (d : Delta Char) : Json :=
  .obj [("els", .arr (d.els.map elementJson)), ("base_len", .nat d.baseLen)]

/-- `RopeDeltaElement_::deserialize` and `From`, serde_impls.rs:97-102 and 110-117, with
`impl Deserialize for Rope`, serde_impls.rs:33-57. -/
def elementOf : Json → Option (DeltaElement Char)
  | .obj [(k, v)] =>
    if k = "copy" then
      match v with
      | .arr [a, b] => do return .copy (← a.asU64) (← b.asU64)
      | _ => none
    else if k = "insert" then v.asStr.map fun s => .insert s.toList
    else none
  | _ => none

/-- `Vec<RopeDeltaElement_>::deserialize`, serde_impls.rs:106. -/
def elementsOf : Json → Option (List (DeltaElement Char))
  | .arr js => readAll elementOf js
  | _ => none

/-- `impl Deserialize for Delta`, serde_impls.rs:90-130. -/
def deltaOf : Json → Option (Delta Char)
  | .obj fields => do
    let els ← (fields.lookup "els").bind elementsOf
    let baseLen ← (fields.lookup "base_len").bind Json.asU64
    return ⟨els, baseLen⟩
  | .arr [a, b] => do return ⟨← elementsOf a, ← b.asU64⟩
  | _ => none

/-! ## Samples of the tracer -/

/-- `arr.join(",")`, trace/lib.rs:154-160. -/
def joinCommas : List (List Char) → List Char
  | [] => []
  | [c] => c
  | c :: cs => c ++ ',' :: joinCommas cs

/-- `v.split(',')`. -/
def splitCommas : List Char → List (List Char)
  | [] => [[]]
  | c :: s =>
    if c = ',' then [] :: splitCommas s
    else
      match splitCommas s with
      | [] => [[c]]
      | w :: ws => (c :: w) :: ws

/-- `impl Serialize for CategoriesT`, trace/lib.rs:116-123. -/
def categoriesJson (cs : List (List Char)) : Json := .str (String.ofList (joinCommas cs))

/-- `impl Deserialize for CategoriesT`, trace/lib.rs:125-151. -/
def categoriesOf : Json → Option (List (List Char))
  | .str s => some (splitCommas s.toList)
  | _ => none

/-- `enum SampleEventType`, trace/lib.rs:235-250. -/
inductive EventType where
  | durationBegin | durationEnd | completeDuration | instant
  | asyncStart | asyncInstant | asyncEnd
  | flowStart | flowInstant | flowEnd
  | objectCreated | objectSnapshot | objectDestroyed | metadata
deriving DecidableEq, Repr

/-- `into_chrome_id`, trace/lib.rs:255-273. -/
def EventType.chromeId : EventType → Char
  | .durationBegin => 'B'
  | .durationEnd => 'E'
  | .completeDuration => 'X'
  | .instant => 'i'
  | .asyncStart => 'b'
  | .asyncInstant => 'n'
  | .asyncEnd => 'e'
  | .flowStart => 's'
  | .flowInstant => 't'
  | .flowEnd => 'f'
  | .objectCreated => 'N'
  | .objectSnapshot => 'O'
  | .objectDestroyed => 'D'
  | .metadata => 'M'

/-- `from_chrome_id`, trace/lib.rs:275-294: it panics for other characters. -/
def EventType.ofChromeId (c : Char) : Option EventType :=
  if c = 'B' then some .durationBegin
  else if c = 'E' then some .durationEnd
  else if c = 'X' then some .completeDuration
  else if c = 'i' then some .instant
  else if c = 'b' then some .asyncStart
  else if c = 'n' then some .asyncInstant
  else if c = 'e' then some .asyncEnd
  else if c = 's' then some .flowStart
  else if c = 't' then some .flowInstant
  else if c = 'f' then some .flowEnd
  else if c = 'N' then some .objectCreated
  else if c = 'O' then some .objectSnapshot
  else if c = 'D' then some .objectDestroyed
  else if c = 'M' then some .metadata
  else none

/-- `deserialize_event_type`, trace/lib.rs:375-380: a `char` is a string of one character. -/
def eventTypeOf : Json → Option (Option EventType)
  | .str s =>
    match s.toList with
    | [c] => (EventType.ofChromeId c).map some
    | _ => some none
  | _ => some none

/-- `struct SampleArgs`, trace/lib.rs:341-360, with payloads that are strings, trace/lib.rs:190-191. -/
structure SampleArgs where
  payload : Option String
  name : Option String
  sortIndex : Option Int
deriving DecidableEq, Repr

/-- `struct Sample`, trace/lib.rs:386-414. -/
structure Sample where
  name : String
  categories : Option (List (List Char))
  timestamp : Nat
  eventType : EventType
  duration : Option Nat
  pid : Nat
  tid : Nat
  threadName : Option String
  args : Option SampleArgs
deriving DecidableEq, Repr

/-- A field with `skip_serializing_if = "Option::is_none"`. -/
def optionalField {α : Type} (key : String) (write : α → Json) : Option α → List (String × Json)
  | none => []
  | some x => [(key, write x)]

/-- The derived `Serialize` for `SampleArgs`, trace/lib.rs:341-360. -/
def argsJson (a : SampleArgs) : Json :=
  .obj (optionalField "xi_payload" Json.str a.payload ++ optionalField "name" Json.str a.name ++
    optionalField "sort_index" Json.ofI64 a.sortIndex)

/-- The derived `Serialize` for `Sample`, trace/lib.rs:386-414; the name of the thread is skipped. -/
def sampleJson (s : Sample) : Json :=
  .obj ([("name", .str s.name)] ++ optionalField "cat" categoriesJson s.categories ++
    [("ts", .nat s.timestamp), ("ph", .str (String.ofList [s.eventType.chromeId]))] ++
    optionalField "dur" Json.nat s.duration ++ [("pid", .nat s.pid), ("tid", .nat s.tid)] ++
    optionalField "args" argsJson s.args)

/-- An `i32`. -/
def asI32 (j : Json) : Option Int :=
  match j.asI64 with
  | some i => if -(2 ^ 31) ≤ i ∧ i < 2 ^ 31 then some i else none
  | none => none

/-- The derived `Deserialize` for `SampleArgs`, trace/lib.rs:341-360. -/
def argsOf : Json → Option SampleArgs
  | .obj fields => do
    let payload ← readOption Json.asStr (fields.lookup "xi_payload")
    let name ← readOption Json.asStr (fields.lookup "name")
    let sortIndex ← readOption asI32 (fields.lookup "sort_index")
    return ⟨payload, name, sortIndex⟩
  | .arr [a, b, c] => do
    return ⟨← readOption Json.asStr (some a), ← readOption Json.asStr (some b), ← readOption asI32 (some c)⟩
  | _ => none

/-- The derived `Deserialize` for `Sample`, trace/lib.rs:386-414, from an object.  Simplified: if several fields
are wrong, a character that is no type of event counts first. -/
def sampleOf : Json → Option (Option Sample)
  | .obj fields =>
    match (fields.lookup "ph").map eventTypeOf with
    | none => some none
    | some none => none
    | some (some none) => some none
    | some (some (some eventType)) => some do
      let name ← (fields.lookup "name").bind Json.asStr
      let categories ← readOption categoriesOf (fields.lookup "cat")
      let timestamp ← (fields.lookup "ts").bind Json.asU64
      let duration ← readOption Json.asU64 (fields.lookup "dur")
      let pid ← (fields.lookup "pid").bind Json.asU64
      let tid ← (fields.lookup "tid").bind Json.asU64
      let threadName ← readOption Json.asStr (fields.lookup "thread_name")
      let args ← readOption argsOf (fields.lookup "args")
      return ⟨name, categories, timestamp, eventType, duration, pid, tid, threadName, args⟩
  | _ => some none

end Wire

end Xi
