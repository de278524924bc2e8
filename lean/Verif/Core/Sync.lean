/-!
# Model of the synchronisation of a buffer with the ledger (`rust/core-lib/src/fuchsia/sync.rs`, `editor.rs`)

Engines are of any type `E`, with their merge, what an edit makes of them, and the id of their newest revision; that these are as in `Rope/Engine.lean` is
not used here.  Bytes in the ledger are of any type `B`.  There is one buffer.  Calls of the ledger that fail other than the start of a transaction, which end
the program (ledger.rs:30-33), and the contents of the channel when the program ends are left out.
-/

namespace Xi

namespace Sync

/-- What is done with engines: `Engine::merge`, an edit with the id of its revision, `get_head_rev_id`, and `state_to_buf` and `buf_to_state`, sync.rs:34-40. -/
structure Ops (E B : Type) where
  merge : E → E → E
  edit : E → Nat → E
  head : E → Nat
  encode : E → B
  decode : B → Option E

/-- `SyncMsg`, sync.rs:129-140; the promise `done` is a number. -/
inductive Msg (B : Type) where
  | newState (buf : B) (done : Option Nat)
  | ready
  | stop

/-- The fields of `Editor` that matter here, editor.rs:52-86; of the store there is `transaction_pending`, sync.rs:43-49. -/
structure Editor (E : Type) where
  engine : E
  lastRev : Nat
  lastSynced : Nat
  store : Option Bool

/-- The editor, if the buffer is open, the transactions that the ledger was asked for and has not answered, the channel to the updater, what was put into the
ledger (the latest first), the promises that were kept, and whether the updater has ended. -/
structure State (E B : Type) where
  editor : Option (Editor E)
  asked : Nat := 0
  chan : List (Msg B) := []
  stored : List B := []
  kept : List Nat := []
  ended : Bool := false

/-- What can happen. -/
inductive Action (B : Type) where
  | edit (id : Nat)
  | attach
  | answer (ok : Bool)
  | initial (buf : B)
  | changed (buf : B) (done : Nat)
  | work
  | stop
  | close

variable {E B : Type}

/-- A buffer that is opened, editor.rs:95-121. -/
def State.start (o : Ops E B) (e : E) : State E B := { editor := some ⟨e, o.head e, o.head e, none⟩ }

/-- `sync_state_changed`, editor.rs:324-333, with `state_changed`, sync.rs:103-117; the second part is the number of transactions asked for. -/
def Editor.syncStateChanged (o : Ops E B) (ed : Editor E) : Editor E × Nat :=
  match ed.store with
  | none => (ed, 0)
  | some pending =>
    if ed.lastSynced ≠ o.head ed.engine then
      if pending then ({ ed with lastSynced := o.head ed.engine }, 0)
      else ({ ed with lastSynced := o.head ed.engine, store := some true }, 1)
    else (ed, 0)

/-- `commit_delta`, editor.rs:249-274, as far as it goes to the ledger. -/
def Editor.commitDelta (o : Ops E B) (ed : Editor E) : Editor E × Nat :=
  if o.head ed.engine = ed.lastRev then (ed, 0)
  else Editor.syncStateChanged o { ed with lastRev := o.head ed.engine }

/-- `merge_new_state`, editor.rs:298-308. -/
def Editor.mergeNewState (o : Ops E B) (ed : Editor E) (e : E) : Editor E × Nat :=
  let engine := o.merge ed.engine e
  Editor.commitDelta o { ed with engine := engine, lastSynced := o.head engine }

/-- `transaction_ready`, editor.rs:335-339, and `commit_transaction`, sync.rs:120-125, with what is put into the ledger; `none` is a panic. -/
def Editor.transactionReady (o : Ops E B) (ed : Editor E) : Option (Editor E × List B) :=
  match ed.store with
  | none => some (ed, [])
  | some true => some ({ ed with store := some false }, [o.encode ed.engine])
  | some false => none

/-- One turn of the loop of `SyncUpdater::work`, sync.rs:163-190, if there is a message. -/
def State.work (o : Ops E B) (s : State E B) : Option (State E B) :=
  if s.ended then some s
  else
    match s.chan with
    | [] => some s
    | .stop :: rest => some { s with chan := rest, ended := true }
    | .ready :: rest =>
      match s.editor with
      | none => some { s with chan := rest }
      | some ed =>
        match Editor.transactionReady o ed with
        | none => none
        | some (ed, puts) => some { s with chan := rest, editor := some ed, stored := puts ++ s.stored }
    | .newState buf done :: rest =>
      match s.editor, o.decode buf with
      | some ed, some e =>
        let r := Editor.mergeNewState o ed e
        some { s with chan := rest, editor := some r.1, asked := s.asked + r.2, kept := done.toList ++ s.kept }
      | _, _ => some { s with chan := rest }

/-- What happens: an edit with `commit_delta` after it; a new store, sync.rs:59-97 and editor.rs:316-318; the ledger's answer to `start_transaction`,
sync.rs:109-115; what was in the ledger at first, sync.rs:79-94; a change there, sync.rs:199-219; a turn of the updater; its end; the end of the buffer. -/
def State.step (o : Ops E B) (s : State E B) : Action B → Option (State E B)
  | .edit id =>
    match s.editor with
    | none => some s
    | some ed =>
      let r := Editor.commitDelta o { ed with engine := o.edit ed.engine id }
      some { s with editor := some r.1, asked := s.asked + r.2 }
  | .attach =>
    match s.editor with
    | none => some s
    | some ed => some { s with editor := some { ed with store := some false } }
  | .answer ok =>
    if s.asked = 0 then some s
    else some { s with asked := s.asked - 1, chan := if ok then s.chan ++ [.ready] else s.chan }
  | .initial buf => some { s with chan := s.chan ++ [.newState buf none] }
  | .changed buf done => some { s with chan := s.chan ++ [.newState buf (some done)] }
  | .work => s.work o
  | .stop => some { s with chan := s.chan ++ [.stop] }
  | .close => some { s with editor := none }

/-- All that happens, in order. -/
def State.run (o : Ops E B) : State E B → List (Action B) → Option (State E B)
  | s, [] => some s
  | s, a :: as =>
    match s.step o a with
    | none => none
    | some s => State.run o s as

/-- A side of a conflict, `state_from_snapshot`, sync.rs:266-296: the ledger failed, or there is nothing there, or there are bytes. -/
inductive Side (B : Type) where
  | failed
  | missing
  | bytes (buf : B)

/-- `state_from_snapshot`, sync.rs:277-293; `none` is a failure. -/
def Side.state (o : Ops E B) : Side B → Option (Option E)
  | .failed => none
  | .missing => some none
  | .bytes buf => some (o.decode buf)

/-- `resolve`, sync.rs:303-345: what is given to the ledger, if anything is. -/
def resolve (o : Ops E B) (left right : Side B) : Option B :=
  match left.state o, right.state o with
  | some (some e1), some (some e2) => some (o.encode (o.merge e1 e2))
  | some (some e), some none => some (o.encode e)
  | some none, some (some e) => some (o.encode e)
  | _, _ => none

end Sync

end Xi
