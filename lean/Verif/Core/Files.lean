import Verif.Config.Lemmas

/-!
# Model of `rust/core-lib/src/file.rs`, and of the parts of `tabs.rs` that open, save, close and reload files

A file system is a map from paths to files; all paths are canonical.  Reading does not fail.  Saving may fail at any of its steps.
Directories and symbolic links, and the watcher (`watcher.rs`), which only says when to look at a path, are left out.
-/

namespace Xi

namespace Files

open Config (Map set unset)

/-- A file: its contents, modification time and mode. -/
structure DiskFile where
  bytes : List UInt8
  time : Nat
  mode : Nat
  deriving DecidableEq

/-- The file system. -/
abbrev Disk := String → Option DiskFile

/-- Changes the file at a path. -/
def Disk.put (d : Disk) (path : String) (f : Option DiskFile) : Disk := fun p => if p = path then f else d p

/-- `CharacterEncoding`, file.rs:65-69. -/
inductive Encoding where
  | utf8
  | utf8WithBom
  deriving DecidableEq

/-- `FileInfo`, file.rs:50-57. -/
structure Info where
  encoding : Encoding
  path : String
  modTime : Option Nat
  hasChanged : Bool
  permissions : Option Nat
  deriving DecidableEq

/-- `FileError`, file.rs:59-63. -/
inductive FileError where
  | io
  | unknownEncoding
  | hasChanged
  deriving DecidableEq

/-- `UTF8_BOM`, file.rs:38. -/
def bom : List UInt8 := [0xEF, 0xBB, 0xBF]

/-- `CharacterEncoding::guess`, file.rs:257-263. -/
def Encoding.guess (s : List UInt8) : Encoding := if bom.isPrefixOf s then .utf8WithBom else .utf8

/-- `str::from_utf8`. -/
def fromUtf8 (s : List UInt8) : Option (List UInt8) := if (ByteArray.mk s.toArray).validateUTF8 then some s else none

/-- `try_decode`, file.rs:243-254. -/
def decode (s : List UInt8) : Encoding → Option (List UInt8)
  | .utf8 => fromUtf8 s
  | .utf8WithBom => (fromUtf8 s).map (·.drop bom.length)

/-- `get_mod_time`, file.rs:268-270. -/
def modTime (d : Disk) (path : String) : Option Nat := (d path).map (·.time)

/-- `get_permissions`, file.rs:275-277. -/
def permissions (d : Disk) (path : String) : Option Nat := (d path).map (·.mode)

/-- `try_load_file`, file.rs:177-199, of a file that exists. -/
def load (d : Disk) (path : String) (f : DiskFile) : Except FileError (List UInt8 × Info) :=
  match decode f.bytes (Encoding.guess f.bytes) with
  | none => .error .unknownEncoding
  | some text => .ok (text, ⟨Encoding.guess f.bytes, path, modTime d path, false, permissions d path⟩)

/-- The name of the file that is written first, file.rs:208-216: `.swp` is put after the whole name, with or without an extension. -/
def tmpPath (path : String) : String := path ++ ".swp"

/-- `File::create`, file.rs:218: an old file keeps its mode. -/
def create (path : String) (time : Nat) (d : Disk) : Disk := d.put path (some ⟨[], time, ((d path).map (·.mode)).getD 0o644⟩)

/-- `write_all` to a file that was created. -/
def write (path : String) (time : Nat) (s : List UInt8) (d : Disk) : Disk := d.put path ((d path).map fun f => { f with bytes := f.bytes ++ s, time := time })

/-- `fs::rename`, file.rs:228. -/
def rename (src dst : String) (d : Disk) : Disk := (d.put dst (d src)).put src none

/-- `fs::set_permissions`, file.rs:233. -/
def setMode (path : String) (mode : Nat) (d : Disk) : Disk := d.put path ((d path).map fun f => { f with mode := mode })

/-- What is written before the text, file.rs:219-222. -/
def Encoding.mark : Encoding → List (List UInt8)
  | .utf8 => []
  | .utf8WithBom => [bom]

/-- The steps of `try_save`, file.rs:202-241, up to the renaming, with the chunks of the text. -/
def saveSteps (path : String) (chunks : List (List UInt8)) (encoding : Encoding) (time : Nat) : List (Disk → Disk) :=
  [create (tmpPath path) time] ++ (encoding.mark ++ chunks).map (write (tmpPath path) time) ++ [rename (tmpPath path) path]

/-- The steps done one after the other. -/
def perform (steps : List (Disk → Disk)) (d : Disk) : Disk := steps.foldl (fun d f => f d) d

/-- The end of `try_save`, file.rs:230-240; that a mode cannot be set is only logged, and left out here. -/
def restoreMode (path : String) (info : Option Info) (d : Disk) : Disk :=
  match info with
  | some i => setMode path (i.permissions.getD 0o644) d
  | none => d

/-- `try_save`, file.rs:202-241, at a certain time.  If `fault` is the number of a step, this step fails, and the steps before it are done. -/
def trySave (d : Disk) (path : String) (chunks : List (List UInt8)) (encoding : Encoding) (info : Option Info) (time : Nat) (fault : Option Nat) : Disk × Bool :=
  let steps := saveSteps path chunks encoding time
  match fault with
  | some k => if k < steps.length then (perform (steps.take k) d, false) else (restoreMode path info (perform steps d), true)
  | none => (restoreMode path info (perform steps d), true)

/-- `FileManager`, file.rs:41-47, without the watcher, and the file system. -/
structure Manager where
  openFiles : Map String Nat
  info : Map Nat Info
  disk : Disk

/-- `FileManager::get_editor`, file.rs:91-93. -/
def Manager.getEditor (m : Manager) (path : String) : Option Nat := m.openFiles.lookup path

/-- `FileManager::check_file`, file.rs:97-106. -/
def Manager.checkFile (m : Manager) (path : String) (id : Nat) : Manager × Bool :=
  match m.info.lookup id with
  | none => (m, false)
  | some i =>
    let i := if modTime m.disk path ≠ i.modTime then { i with hasChanged := true } else i
    ({ m with info := set m.info id i }, i.hasChanged)

/-- `FileManager::open`, file.rs:108-121. -/
def Manager.open (m : Manager) (path : String) (id : Nat) : Except FileError (Manager × List UInt8) :=
  match m.disk path with
  | none => .ok (m, [])
  | some f =>
    match load m.disk path f with
    | .error e => .error e
    | .ok (text, i) => .ok ({ m with openFiles := set m.openFiles path id, info := set m.info id i }, text)

/-- `FileManager::close`, file.rs:123-129. -/
def Manager.close (m : Manager) (id : Nat) : Manager :=
  match m.info.lookup id with
  | none => m
  | some i => { m with info := unset m.info id, openFiles := unset m.openFiles i.path }

/-- `FileManager::save_new`, file.rs:140-156. -/
def Manager.saveNew (m : Manager) (path : String) (chunks : List (List UInt8)) (id : Nat) (time : Nat) (fault : Option Nat) : Manager × Option FileError :=
  let r := trySave m.disk path chunks .utf8 (m.info.lookup id) time fault
  if r.2 then
    ({ openFiles := set m.openFiles path id, info := set m.info id ⟨.utf8, path, modTime r.1 path, false, permissions r.1 path⟩, disk := r.1 }, none)
  else ({ m with disk := r.1 }, some .io)

/-- `FileManager::save_existing`, file.rs:158-174, with the information about the file. -/
def Manager.saveExisting (m : Manager) (path : String) (chunks : List (List UInt8)) (id : Nat) (i : Info) (time : Nat) (fault : Option Nat) : Manager × Option FileError :=
  if i.path ≠ path then
    let r := m.saveNew path chunks id time fault
    if r.2.isSome then r else ({ r.1 with openFiles := unset r.1.openFiles i.path }, none)
  else if i.hasChanged then (m, some .hasChanged)
  else
    let r := trySave m.disk path chunks i.encoding (some i) time fault
    if r.2 then ({ m with info := set m.info id { i with modTime := modTime r.1 path }, disk := r.1 }, none)
    else ({ m with disk := r.1 }, some .io)

/-- `FileManager::save`, file.rs:131-138. -/
def Manager.save (m : Manager) (path : String) (chunks : List (List UInt8)) (id : Nat) (time : Nat) (fault : Option Nat) : Manager × Option FileError :=
  match m.info.lookup id with
  | some i => m.saveExisting path chunks id i time fault
  | none => m.saveNew path chunks id time fault

/-- What is needed of an `Editor`: its text and whether it `is_pristine`. -/
structure Ed where
  text : List UInt8
  pristine : Bool
  deriving DecidableEq

/-- What is needed of `CoreState`. -/
structure Core where
  manager : Manager
  editors : Map Nat Ed

/-- `EventContext::text_for_save`, event_context.rs:528-551; `ending` is the line ending if `save_with_newline` is set.  The end of the
text is looked for in its last leaf in the code. -/
def textForSave (text : List UInt8) (ending : Option (List UInt8)) : List UInt8 :=
  match ending with
  | none => text
  | some e => if text.length < 1 then text else if e.isSuffixOf text then text else text ++ e

/-- `CoreState::do_new_view`, tabs.rs:364-395: opens a file for a new buffer. -/
def Core.newView (c : Core) (path : Option String) (id : Nat) : Core × Option FileError :=
  match path with
  | none => ({ c with editors := set c.editors id ⟨[], true⟩ }, none)
  | some p =>
    match c.manager.open p id with
    | .error e => (c, some e)
    | .ok (m, text) => (⟨m, set c.editors id ⟨text, true⟩⟩, none)

/-- `CoreState::do_save`, tabs.rs:397-429; a view and its buffer are one.  The text is cut into chunks by `chunk`. -/
def Core.save (chunk : List UInt8 → List (List UInt8)) (c : Core) (id : Nat) (path : String) (ending : Option (List UInt8)) (time : Nat) (fault : Option Nat) : Core × Option FileError :=
  match c.editors.lookup id with
  | none => (c, none)
  | some ed =>
    let r := c.manager.save path (chunk (textForSave ed.text ending)) id time fault
    if r.2.isSome then ({ c with manager := r.1 }, r.2)
    else (⟨r.1, set c.editors id { ed with pristine := true }⟩, none)

/-- `CoreState::do_close_view`, tabs.rs:431-443. -/
def Core.close (c : Core) (id : Nat) : Core :=
  match c.editors.lookup id with
  | none => c
  | some _ => ⟨c.manager.close id, unset c.editors id⟩

/-- `CoreState::handle_open_file_fs_event`, tabs.rs:706-742, for an event that says that a file was created or modified; `none` is a panic.
The second result is the buffer for which `reload` is called.  Its text is then that of the file: this is C37. -/
def Core.event (c : Core) (path : String) : Option (Core × Option Nat) :=
  match c.manager.getEditor path with
  | none => some (c, none)
  | some id =>
    match c.editors.lookup id with
    | none => none
    | some ed =>
      if (c.manager.checkFile path id).2 && ed.pristine then
        match (c.manager.checkFile path id).1.open path id with
        | .error _ => some ({ c with manager := (c.manager.checkFile path id).1 }, none)
        | .ok (m, text) => some (⟨m, Config.set c.editors id ⟨text, true⟩⟩, some id)
      else some ({ c with manager := (c.manager.checkFile path id).1 }, none)

end Files

end Xi
