import Verif.Rpc.Loop

/-!
# What the RPC loop should do
-/

namespace Xi

namespace Rpc

variable {N R H : Type}

/-- The requests that have a number but are not registered. -/
def numberedOnly (l : List (Sending H)) : List (Nat × H) := l.filterMap (fun x => if x.stage = .numbered then some (x.id, x.handler) else none)

/-- The response handler that the reader is about to call. -/
def Reader.delivering : Reader H → List (Nat × H)
  | .invoking id h _ => [(id, h)]
  | _ => []

/-- Every request is in exactly one place: not yet registered, pending, about to be answered, or answered. -/
structure Ledger (s : State N R H) : Prop where
  numbers : s.asked.map (·.1) = List.range s.counter
  places : s.asked.Perm (numberedOnly s.sending ++ s.pending ++ s.reader.delivering ++ s.answers.map (fun x => (x.1, x.2.1)))

/-- A message that is a response to request `id`. -/
def Responds (m : Except ReadError Json) (id : Nat) (x : Option Response) : Prop :=
  ∃ j n, m = .ok j ∧ j.get "method" = none ∧ j.get "id" = some (.nat n) ∧ n % 2 ^ 64 = id ∧
    match x with
    | some (.result v) => j.get "result" = some v ∧ j.get "error" = none
    | some (.error e) => j.get "result" = none ∧ ∃ v, j.get "error" = some v ∧ e = .ofJson v
    | none => (j.get "result" = none ∧ j.get "error" = none) ∨ ((j.get "result").isSome ∧ (j.get "error").isSome)

/-- A thread has closed the connection. -/
def Ended (s : State N R H) : Prop :=
  (∃ o, s.main = .flagging o ∨ s.main = .finished o) ∨ (∃ e, s.reader = .flagging e ∨ s.reader = .putting (.error e)) ∨ s.reader = .stopped

/-- The reason for an answer. -/
def Reason (s : State N R H) (id : Nat) : Answer → Prop
  | .response r => ∃ m ∈ s.heard, Responds m id (some r)
  | .invalidResponse => ∃ m ∈ s.heard, Responds m id none
  | .disconnected => Ended s
  | .io => id ∈ s.unsent

/-- Messages for the main loop: errors, and everything that is not a response. -/
def forMain : Except ReadError Json → Bool
  | .error _ => true
  | .ok j => !isResponse j

/-- The message that the reader is about to hand over. -/
def Reader.held : Reader H → List (Except ReadError Json)
  | .failed e => [.error e]
  | .closing e => [.error e]
  | .flagging e => [.error e]
  | .putting m => [m]
  | _ => []

/-- The message that the main loop has just received. -/
def Main.received : Main N R → List (Except ReadError Json)
  | .got m => [m]
  | _ => []

/-- The number of the request, if the message is one. -/
def requestId : Except ReadError Json → Option Nat
  | .error _ => none
  | .ok j => getId j

/-- The request in the handler. -/
def Work.request? : Work N R → List Nat
  | .request id _ => [id]
  | _ => []

/-- The requests of the peer that have not been answered; `none` when the loop ends. -/
def Main.owed : Main N R → Option (List Nat)
  | .working w => some w.request?
  | .asking w => some w.request?
  | .awaiting w _ => some w.request?
  | .responding id _ => some [id]
  | .closing _ => none
  | .flagging _ => none
  | .finished _ => none
  | _ => some []

/-- The last piece of idle work. -/
def Work.isLast : Work N R → Bool
  | .last _ _ => true
  | _ => false

/-- The loop is about to end: nothing but the last idle work is done. -/
def Main.ending : Main N R → Bool
  | .working w => w.isLast
  | .asking w => w.isLast
  | .awaiting w _ => w.isLast
  | .closing _ => true
  | .flagging _ => true
  | .finished _ => true
  | _ => false

/-- A message, not an error. -/
def isMessage : Except ReadError Json → Bool
  | .ok _ => true
  | .error _ => false

/-- The replies of a log. -/
def repliesOf (l : List Sent) : List (Nat × Response) := l.filterMap (fun x => match x with | .reply id r => some (id, r) | .request _ => none)

/-- The requests of a log. -/
def requestsOf (l : List Sent) : List Nat := l.filterMap (fun x => match x with | .request id => some id | .reply _ _ => none)

/-- The requests that are still to be written. -/
def unwritten (l : List (Sending H)) : List Nat := l.filterMap (fun x => if x.stage = .failed then none else some x.id)

/-- The request `id` waits for ever: it is pending, the reader is gone and the main thread waits for the answer. -/
structure Lost (s : State N R H) (w : Work N R) (id : Nat) : Prop where
  main : s.main = .awaiting w id
  reader : s.reader = .stopped ∨ s.reader = .crashed
  sending : ∀ x ∈ s.sending, x.id ≠ id
  pending : ∃ h, (id, h) ∈ s.pending
  answers : ∀ x ∈ s.answers, x.1 ≠ id
  old : id < s.counter

end Rpc

end Xi
