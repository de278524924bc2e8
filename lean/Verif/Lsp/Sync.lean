import Verif.Plugin.ChunkCache
import Verif.Rope.Find

/-!
# Model of `rust/lsp-lib/src/conversion_utils.rs`, and of the changes sent to a language server
(`rust/lsp-lib/src/utils.rs`)

As in `Plugin/ChunkCache.lean` a function that can panic returns `Option`, and inside `Err(_)` is
`none`.  Positions are natural numbers (`u64` in the code).
-/

namespace Xi

namespace Lsp

open Plugin

/-- `Position` of the crate `lsp-types`. -/
structure Position where
  line : Nat
  character : Nat
deriving DecidableEq

/-- `TextDocumentContentChangeEvent` of the crate `lsp-types`; the text is its bytes. -/
structure Change where
  range : Option (Position × Position)
  rangeLength : Option Nat
  text : List UInt8
deriving DecidableEq

/-- `TextDocumentSyncKind` of the crate `lsp-types`. -/
inductive SyncKind where
  | none
  | full
  | incremental

/-- `count_utf16`, conversion_utils.rs:48-59. -/
def countUtf16 (s : List UInt8) : Nat :=
  s.foldl (fun n b =>
    let n := if isCont b then n else n + 1
    if b.toNat ≥ 0xf0 then n + 1 else n) 0

/-- The operator `?` on a call that uses the view. -/
def andThen {α β : Type} (x : Option (ChunkCache × Option α)) (f : ChunkCache → α → Option (ChunkCache × Option β)) : Option (ChunkCache × Option β) := do
  match ← x with
  | (c, .none) => return (c, .none)
  | (c, some a) => f c a

/-- `get_position_of_offset`, conversion_utils.rs:62-72. -/
def positionOfOffset (source : Source) (size : Nat) (c : ChunkCache) (offset : Nat) : Option (ChunkCache × Option Position) :=
  andThen (c.lineOfOffset source size offset) fun c lineNum =>
  andThen (c.offsetOfLine source size lineNum) fun c lineOffset =>
  andThen (c.getLine source size lineNum) fun c line => do
    return (c, some ⟨lineNum, countUtf16 (← strSlice line 0 (← checkedSub offset lineOffset))⟩)

/-- `len_utf16` (Rust standard library). -/
def lenUtf16 (c : Char) : Nat := if c.toNat ≥ 0x10000 then 2 else 1

/-- The loop of `offset_of_position`, conversion_utils.rs:84-90. -/
def walk (character : Nat) : List Char → Nat → Nat → Nat
  | [], _, len8 => len8
  | u :: rest, len16, len8 =>
    if len16 ≥ character then len8 else walk character rest (len16 + lenUtf16 u) (len8 + (String.utf8EncodeChar u).length)

/-- `offset_of_position`, conversion_utils.rs:74-92; the first result is looked at last. -/
def offsetOfPosition (source : Source) (size : Nat) (c : ChunkCache) (p : Position) : Option (ChunkCache × Option Nat) := do
  let (c, lineOffset) ← c.offsetOfLine source size p.line
  andThen (c.getLine source size p.line) fun c line =>
    some (c, lineOffset.map fun o => walk p.character (Find.chars line) 0 0 + o)

/-- The whole document, utils.rs:83-89, 105-110, 116-121. -/
def wholeDocument (source : Source) (size : Nat) (c : ChunkCache) : Option (ChunkCache × Option (List Change)) :=
  andThen (c.getDocument source size) fun c text => some (c, some [⟨.none, .none, text⟩])

/-- The end of a deletion, utils.rs:58-69. -/
def deletionEnd (source : Source) (size : Nat) (c : ChunkCache) (stop : Nat) : Option (ChunkCache × Option Position) :=
  andThen (positionOfOffset source size c stop) fun c e =>
    if e.character = 0 then do
      let before ← checkedSub stop 1
      andThen (positionOfOffset source size c before) fun c ep => some (c, some { ep with character := ep.character + 1 })
    else some (c, some e)

/-- `get_document_content_changes`, utils.rs:34-93.  The view has been updated before
(dispatch.rs:166-167). -/
def contentChanges (source : Source) (size : Nat) (delta : Option (Delta UInt8)) (c : ChunkCache) : Option (ChunkCache × Option (List Change)) :=
  match delta with
  | .none => wholeDocument source size c
  | some d =>
    let ((start, stop), _) := d.summary
    match d.asSimpleInsert with
    | some text =>
      andThen (positionOfOffset source size c start) fun c s =>
      andThen (positionOfOffset source size c stop) fun c e => do
        return (c, some [⟨some (s, e), some (← checkedSub stop start), text⟩])
    | .none =>
      if d.isSimpleDelete then
        andThen (deletionEnd source size c stop) fun c e =>
        andThen (positionOfOffset source size c start) fun c s => do
          return (c, some [⟨some (s, e), some (← checkedSub stop start), []⟩])
      else wholeDocument source size c

/-- `get_change_for_sync_kind`, utils.rs:96-125; `get_document().unwrap()` panics if the peer does
not answer. -/
def changeForSyncKind (source : Source) (size : Nat) (kind : SyncKind) (delta : Option (Delta UInt8)) (c : ChunkCache) : Option (ChunkCache × Option (List Change)) :=
  let unwrapped (c : ChunkCache) : Option (ChunkCache × Option (List Change)) := do
    match ← wholeDocument source size c with
    | (_, .none) => .none
    | (c, some l) => some (c, some l)
  match kind with
  | .none => some (c, .none)
  | .full => unwrapped c
  | .incremental => do
    match ← contentChanges source size delta c with
    | (c, some l) => return (c, some l)
    | (c, .none) => unwrapped c

end Lsp

end Xi
