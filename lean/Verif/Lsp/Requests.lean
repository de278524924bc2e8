import Verif.Lsp.Message

/-!
# Model of requests to a language server and of its messages (`rust/lsp-lib/src/language_server_client.rs`)

What the crate `jsonrpc-lite` makes of the text of a message is given.  Callbacks, answers and errors are of any type.
-/

namespace Xi

namespace Lsp

/-- `Id` of the crate `jsonrpc-lite`; a number is an `i64`. -/
inductive MsgId where
  | num (n : Int)
  | str (s : List Char)
  | none
deriving DecidableEq

/-- `u64 as i64`. -/
def toI64 (n : Nat) : Int := if n < 2 ^ 63 then n else (n : Int) - 2 ^ 64

/-- `i64 as u64`. -/
def toU64 (n : Int) : Nat := (if n < 0 then n + 2 ^ 64 else n).toNat

/-- `number_from_id`, language_server_client.rs:54-60; `none` is a panic. -/
def numberFromId : MsgId → Option Nat
  | .num n => some (toU64 n)
  | .str s => fromRadix s
  | .none => none

/-- `JsonRpc` of the crate `jsonrpc-lite`, with what `parse` gives for anything else. -/
inductive Incoming (R E : Type) where
  | request
  | notification
  | success (id : MsgId) (result : R)
  | error (id : MsgId) (e : E)
  | bad

/-- `pending` and `next_id` of `LanguageServerClient`, language_server_client.rs:34-35 and 72-73. -/
structure Requests (CB : Type) where
  pending : List (Nat × CB) := []
  nextId : Nat := 1

variable {CB R E : Type}

/-- `send_request`, language_server_client.rs:157-164: the id that is sent, and the client; `none` is an overflow. -/
def Requests.send (c : Requests CB) (cb : CB) : Option (MsgId × Requests CB) :=
  if c.nextId + 1 < 2 ^ 64 then
    some (.num (toI64 c.nextId), { pending := (c.nextId, cb) :: c.pending.filter (fun e => e.1 ≠ c.nextId), nextId := c.nextId + 1 })
  else none

/-- `handle_response`, language_server_client.rs:111-117: the callback that is called; `none` is a panic. -/
def Requests.respond (c : Requests CB) (id : Nat) (result : Except E R) : Option (Requests CB × Option (CB × Except E R)) :=
  match c.pending.lookup id with
  | none => none
  | some cb => some ({ c with pending := c.pending.filter fun e => e.1 ≠ id }, some (cb, result))

/-- `handle_message`, language_server_client.rs:91-109, but for notifications (`StatusClient.notification`). -/
def Requests.message (c : Requests CB) : Incoming R E → Option (Requests CB × Option (CB × Except E R))
  | .request => some (c, none)
  | .notification => some (c, none)
  | .success id result => do c.respond (← numberFromId id) (.ok result)
  | .error id e => do c.respond (← numberFromId id) (.error e)
  | .bad => some (c, none)

/-- The client in its mutex, `none` if that is poisoned; a message of the server, utils.rs:191-199: after a panic the thread has ended and the mutex is poisoned. -/
def lockedMessage (c : Option (Requests CB)) (m : Incoming R E) : Option (Requests CB) × Option (CB × Except E R) :=
  match c with
  | none => (none, none)
  | some c =>
    match c.message m with
    | none => (none, none)
    | some (c, called) => (some c, called)

/-- A request when the client is in its mutex, lsp_plugin.rs:132-138 and 278-287; `none` is a panic. -/
def lockedSend (c : Option (Requests CB)) (cb : CB) : Option (MsgId × Requests CB) :=
  match c with
  | none => none
  | some c => c.send cb

end Lsp

end Xi
