import Verif.Lsp.Requests

/-!
# A plugin and a server that answers each request at most once
-/

namespace Xi

namespace Lsp

variable {CB R E : Type}

/-- What has happened: requests with the ids that were sent, and callbacks with what they were called with. -/
structure Record (CB R E : Type) where
  sent : List (MsgId × CB) := []
  called : List (CB × MsgId × Except E R) := []

/-- An id of a server for a request: the number that was sent, or its digits. -/
inductive SameId : MsgId → MsgId → Prop
  | num {n : Int} : SameId (.num n) (.num n)
  | digits {n : Nat} : n < 2 ^ 63 → SameId (.num n) (.str (Nat.toDigits 10 n))

/-- The answer in a message. -/
def Incoming.answer : Incoming R E → Option (MsgId × Except E R)
  | .success id r => some (id, .ok r)
  | .error id e => some (id, .error e)
  | _ => none

/-- The client and what has happened. -/
structure RequestWorld (CB R E : Type) where
  client : Requests CB := {}
  record : Record CB R E := {}
  answered : List MsgId := []

/-- A request, or a message of a server that answers each request at most once and nothing else. -/
inductive RequestStep : RequestWorld CB R E → RequestWorld CB R E → Prop
  | send {s : RequestWorld CB R E} {cb : CB} {id : MsgId} {client : Requests CB} : s.client.send cb = some (id, client) →
      RequestStep s ⟨client, { s.record with sent := s.record.sent ++ [(id, cb)] }, s.answered⟩
  | answer {s : RequestWorld CB R E} {m : Incoming R E} {id id' : MsgId} {r : Except E R} {cb cb' : CB} {r' : Except E R} {client : Requests CB} :
      m.answer = some (id', r) → (id, cb) ∈ s.record.sent → SameId id id' → id ∉ s.answered →
      s.client.message m = some (client, some (cb', r')) →
      RequestStep s ⟨client, { s.record with called := s.record.called ++ [(cb', id, r')] }, s.answered ++ [id]⟩
  | other {s : RequestWorld CB R E} {m : Incoming R E} {client : Requests CB} : m.answer = none → s.client.message m = some (client, none) → RequestStep s { s with client := client }

/-- The states there can be. -/
inductive RequestReach : RequestWorld CB R E → Prop
  | start : RequestReach {}
  | step {s s' : RequestWorld CB R E} : RequestReach s → RequestStep s s' → RequestReach s'

end Lsp

end Xi
