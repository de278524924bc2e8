import Verif.Rpc.Parse

/-!
# Model of the status items of a language server (`rust/lsp-lib/src/language_server_client.rs`)

Of a client there are the status items and the views of the open documents; sets are lists.  The core hands the messages on
to the front end one by one (core-lib/src/event_context.rs:241-247 and 253; the name of the plugin is added), so that step is left out.
-/

namespace Xi

namespace Lsp

open Rpc

/-- `status_items` and the keys of `opened_documents`, language_server_client.rs:31-44. -/
structure StatusClient where
  items : List String := []
  opened : List Nat := []
deriving DecidableEq

/-- What is sent to the core, plugin-lib/src/core_proxy.rs:32-63. -/
inductive StatusMsg where
  | add (view : Nat) (key value alignment : String)
  | update (view : Nat) (key value : String)
  | remove (view : Nat) (key : String)
deriving DecidableEq

/-- `Params` of the crate `jsonrpc-lite`: an object or not. -/
inductive Params where
  | map (fields : List (String × Json))
  | other

/-- `remove_status_item`, language_server_client.rs:137-142. -/
def StatusClient.removeItem (c : StatusClient) (id : String) : StatusClient × List StatusMsg :=
  ({ c with items := c.items.filter fun x => x ≠ id }, c.opened.map fun v => .remove v id)

/-- `add_status_item`, language_server_client.rs:144-149. -/
def StatusClient.addItem (c : StatusClient) (id value alignment : String) : StatusClient × List StatusMsg :=
  ({ c with items := if id ∈ c.items then c.items else c.items ++ [id] }, c.opened.map fun v => .add v id value alignment)

/-- `update_status_item`, language_server_client.rs:151-155. -/
def StatusClient.updateItem (c : StatusClient) (id value : String) : StatusClient × List StatusMsg :=
  (c, c.opened.map fun v => .update v id value)

/-- The text of an item, language_server_client.rs:307-321; `percent` is the number times 100, rounded, as text. -/
def progressText (percent : Json → String) (m : List (String × Json)) : String :=
  (match m.lookup "title" with
    | some (.str s) => s ++ " "
    | _ => "") ++
  (match m.lookup "percentage" with
    | some (.nat n) => percent (.nat n) ++ " %"
    | some (.neg n) => percent (.neg n) ++ " %"
    | some .float => percent .float ++ " %"
    | _ => "") ++
  (match m.lookup "message" with
    | some (.str s) => s
    | _ => "")

/-- `window/progress` in `handle_rust_misc_notification`, language_server_client.rs:298-333.  No `id`, or one that is not a string, panics. -/
def StatusClient.progress (percent : Json → String) (c : StatusClient) (params : Params) : Option (StatusClient × List StatusMsg) :=
  match params with
  | .other => some (c, [])
  | .map m =>
    match (m.lookup "done").getD (.bool false) with
    | .bool done =>
      match m.lookup "id" with
      | some (.str id) =>
        if done then some (c.removeItem id)
        else
          let value := progressText percent m
          if id ∈ c.items then some (c.updateItem id value) else some (c.addItem id value "left")
      | _ => none
    | _ => some (c, [])

/-- `handle_rust_misc_notification`, language_server_client.rs:295-336. -/
def StatusClient.rustNotification (percent : Json → String) (c : StatusClient) (method : String) (params : Params) : Option (StatusClient × List StatusMsg) :=
  if method = "window/progress" then c.progress percent params else some (c, [])

/-- `handle_notification` and `handle_misc_notification`, language_server_client.rs:119-135, called in 94-96, where no parameters panic;
`rust` says that the language of the server is Rust. -/
def StatusClient.notification (percent : Json → String) (rust : Bool) (c : StatusClient) (method : String) (params : Option Params) :
    Option (StatusClient × List StatusMsg) :=
  match params with
  | none => none
  | some params =>
    if method = "window/showMessage" ∨ method = "window/logMessage" ∨ method = "textDocument/publishDiagnostics" ∨ method = "telemetry/event" then some (c, [])
    else if rust then c.rustNotification percent method params
    else some (c, [])

/-- The line of `send_did_open` that is about the documents, language_server_client.rs:209. -/
def StatusClient.didOpen (c : StatusClient) (view : Nat) : StatusClient :=
  { c with opened := if view ∈ c.opened then c.opened else c.opened ++ [view] }

/-- The lines of `send_did_close` that are about the documents, language_server_client.rs:226 and 233; a view that is not open panics. -/
def StatusClient.didClose (c : StatusClient) (view : Nat) : Option StatusClient :=
  if view ∈ c.opened then some { c with opened := c.opened.filter fun v => v ≠ view } else none

end Lsp

end Xi
