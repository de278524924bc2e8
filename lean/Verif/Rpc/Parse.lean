/-!
# RPC messages

Model of `rust/rpc/src/parse.rs` and `rust/rpc/src/error.rs`.
-/

namespace Xi

namespace Rpc

/-- `serde_json::Value`.  Numbers as in `serde_json::Number`: `nat` is `PosInt` (below `2^64`), `neg n` is
the `NegInt` `-(n + 1)`, the value of a `Float` is not modelled.  The fields of an object are a list without
duplicate keys. -/
inductive Json where
  | null
  | bool (b : Bool)
  | nat (n : Nat)
  | neg (n : Nat)
  | float
  | str (s : String)
  | arr (xs : List Json)
  | obj (fields : List (String × Json))

namespace Json

/-- `Value::get` with a string. -/
def get (j : Json) (key : String) : Option Json :=
  match j with
  | .obj fields => fields.lookup key
  | _ => none

/-- `Value::as_u64`. -/
def asU64 : Json → Option Nat
  | .nat n => some n
  | _ => none

/-- `Value::as_str`. -/
def asStr : Json → Option String
  | .str s => some s
  | _ => none

/-- `Value::is_object`. -/
def isObject : Json → Bool
  | .obj _ => true
  | _ => false

/-- The `i64` that a number is deserialised to. -/
def asI64 : Json → Option Int
  | .nat n => if n < 2 ^ 63 then some n else none
  | .neg n => if n < 2 ^ 63 then some (-(n : Int) - 1) else none
  | _ => none

/-- The number for an `i64`. -/
def ofI64 (i : Int) : Json := if 0 ≤ i then .nat i.toNat else .neg (-i - 1).toNat

end Json

/-- `RemoteError`, error.rs:99-113. -/
inductive RemoteError where
  | invalidRequest (data : Option Json)
  | custom (code : Int) (message : String) (data : Option Json)
  | unknown (v : Json)

/-- An `Option<Value>` field: `null` is `None`. -/
def optionalData : Option Json → Option Json
  | none => none
  | some .null => none
  | some v => some v

/-- `ErrorHelper::deserialize`, error.rs:171-177: from an object, or from an array of the three fields. -/
def errorHelper : Json → Option (Int × String × Option Json)
  | .obj fields => do
    let code ← (← fields.lookup "code").asI64
    let message ← (← fields.lookup "message").asStr
    return (code, message, optionalData (fields.lookup "data"))
  | .arr [a, b, c] => do return (← a.asI64, ← b.asStr, optionalData (some c))
  | _ => none

/-- `RemoteError::deserialize`, error.rs:180-194.  It never fails. -/
def RemoteError.ofJson (v : Json) : RemoteError :=
  match errorHelper v with
  | none => .unknown v
  | some (code, message, data) => if code = -32600 then .invalidRequest data else .custom code message data

/-- The object that `ErrorHelper` is serialised to, error.rs:171-177. -/
def errorObject (code : Int) (message : String) (data : Option Json) : Json :=
  .obj ([("code", .ofI64 code), ("message", .str message)] ++ (match data with | some d => [("data", d)] | none => []))

/-- `RemoteError::serialize`, error.rs:198-214. -/
def RemoteError.toJson : RemoteError → Option Json
  | .invalidRequest data => some (errorObject (-32600) "Invalid request" data)
  | .custom code message data => some (errorObject code message data)
  | .unknown _ => none

/-- `Response`, parse.rs:28. -/
inductive Response where
  | result (v : Json)
  | error (e : RemoteError)

/-- `ReadError`, error.rs:36-48, without the details. -/
inductive ReadError where
  | io
  | json
  | notObject
  | unknownRequest
  | disconnect
  deriving DecidableEq

/-- What `read_line` and `serde_json::from_str` make of the next line of the stream. -/
inductive Line where
  | ioError
  | closed
  | garbage
  | value (j : Json)

/-- `MessageReader::next` and `parse`, parse.rs:65-87. -/
def Line.read : Line → Except ReadError Json
  | .ioError => .error .io
  | .closed => .error .disconnect
  | .garbage => .error .json
  | .value j => if j.isObject then .ok j else .error .notObject

/-- `get_id`, parse.rs:92-94. -/
def getId (j : Json) : Option Nat := (j.get "id").bind Json.asU64

/-- `get_method`, parse.rs:97-99. -/
def getMethod (j : Json) : Option String := (j.get "method").bind Json.asStr

/-- `is_response`, parse.rs:104-106. -/
def isResponse (j : Json) : Bool := (j.get "id").isSome && (j.get "method").isNone

/-- `obj.remove(key)`: the value. -/
def removed (j : Json) (key : String) : Option Json := j.get key

/-- `into_response`, parse.rs:119-139.  The inner `none` is `Err`, the outer one a crash. -/
def intoResponse (j : Json) : Option (Option Response) :=
  match getId j with
  | none => some none
  | some _ =>
    if (j.get "result").isSome = (j.get "error").isSome then some none
    else
      match removed j "result" with
      | some r => some (some (.result r))
      | none =>
        match removed j "error" with
        | none => none
        | some e => some (some (.error (.ofJson e)))

/-- `Call`, parse.rs:46-54. -/
inductive Call (N R : Type) where
  | request (id : Nat) (r : R)
  | notification (n : N)
  | invalidRequest (id : Nat)

/-- `into_rpc`, parse.rs:148-164; `parseN` and `parseR` are `serde_json::from_value` for the types of the
handler. `none` is `Err`. -/
def intoRpc {N R : Type} (parseN : Json → Option N) (parseR : Json → Option R) (j : Json) : Option (Call N R) :=
  match getId j with
  | some id =>
    match parseR j with
    | some r => some (.request id r)
    | none => some (.invalidRequest id)
  | none =>
    match parseN j with
    | some n => some (.notification n)
    | none => none

end Rpc

end Xi
