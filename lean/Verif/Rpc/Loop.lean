import Verif.Rpc.Parse

/-!
# The RPC loop

Model of `rust/rpc/src/lib.rs`: the threads that send requests, the thread that reads messages and the main
thread, as a transition system.  Every step is one access to shared state (an atomic, or a section under a lock), so
every interleaving is covered.  Simplifications: tracing and logging are left out, the writer is locked for exactly one
message, a response handler only records its result (in the code it may be a callback, which `disconnect` and a failed
send call while `pending` is locked), atomics are sequentially consistent, the text of errors is left out, and time is a
counter that somebody advances.
-/

namespace Xi

namespace Rpc

/-- What a response handler is called with: `Result<Value, Error>`. -/
inductive Answer where
  | response (r : Response)
  | invalidResponse
  | disconnected
  | io

/-- Where a call of `send_rpc_request_common` is, lib.rs:466-482: it has an id (467), is registered (468-471), or could not
write (472-476). -/
inductive Stage where
  | numbered
  | registered
  | failed
  deriving DecidableEq

/-- A call of `send_rpc_request_common`. -/
structure Sending (H : Type) where
  id : Nat
  handler : H
  stage : Stage

/-- A message to the peer: a request (472-476), a response (455-464). -/
inductive Sent where
  | request (id : Nat)
  | reply (id : Nat) (r : Response)

/-- The reader thread, lib.rs:262-301. -/
inductive Reader (H : Type) where
  /-- before the check of `needs_exit`, 267 -/
  | top
  /-- in `reader.next`, 272 -/
  | reading
  /-- before the check of `is_blocked`, 275 -/
  | failed (e : ReadError)
  /-- before `disconnect`, 277 -/
  | closing (e : ReadError)
  /-- before `needs_exit` is set in `disconnect`, 550 -/
  | flagging (e : ReadError)
  /-- before `put_rx`, 279 and 298 -/
  | putting (m : Except ReadError Json)
  /-- before `handle_response`, 290 and 294 -/
  | answering (id : Nat) (a : Answer)
  /-- in `handle_response`, before `invoke`, 491 -/
  | invoking (id : Nat) (h : H) (a : Answer)
  | stopped
  | crashed

/-- How the main loop ends. -/
inductive Outcome where
  | error (e : ReadError)
  | panic
  deriving DecidableEq

/-- What the handler works on. -/
inductive Work (N R : Type) where
  | idle (token : Nat)
  | notification (n : N)
  | request (id : Nat) (r : R)
  /-- the idle work before the end, lib.rs:314-316 -/
  | last (token : Nat) (e : ReadError)

/-- The main thread, lib.rs:303-340 and 354-386. -/
inductive Main (N R : Type) where
  /-- before `try_get_rx`, 360 -/
  | top
  /-- before `check_timers`, 364 -/
  | timers
  /-- before `try_get_idle`, 373 -/
  | idle
  /-- in `get_rx_timeout`, 382 -/
  | wait
  /-- `next_read` has returned, 305 -/
  | got (m : Except ReadError Json)
  | working (w : Work N R)
  /-- in `send_rpc_request`, after `is_blocked` was set, 426 -/
  | asking (w : Work N R)
  /-- in `send_rpc_request`, in or after `send_rpc_request_common`, 428-429 -/
  | awaiting (w : Work N R) (id : Nat)
  /-- before `peer.respond`, 327 and 333 -/
  | responding (id : Nat) (r : Response)
  /-- before `disconnect`, 317, 336 and 156 -/
  | closing (o : Outcome)
  /-- before `needs_exit` is set in `disconnect`, 550 -/
  | flagging (o : Outcome)
  | finished (o : Outcome)

/-- `Timer`, lib.rs:187-191. -/
structure Timer where
  fireAfter : Nat
  token : Nat
  deriving DecidableEq

/-- `RpcState`, lib.rs:193-203, the threads, and what has happened so far (`asked`, `answers`, `sent`, `unsent`, `heard`,
`taken`, `replied`). -/
structure State (N R H : Type) where
  /-- `rx_queue` -/
  rxQueue : List (Except ReadError Json)
  /-- `id` -/
  counter : Nat
  /-- `pending`, in the order of the keys -/
  pending : List (Nat × H)
  /-- `idle_queue` -/
  idleQueue : List Nat
  /-- `timers` -/
  timers : List Timer
  /-- `needs_exit` -/
  needsExit : Bool
  /-- `is_blocked` -/
  isBlocked : Bool
  /-- the time -/
  now : Nat
  /-- the calls of `send_rpc_request_common` that have not returned -/
  sending : List (Sending H)
  reader : Reader H
  main : Main N R
  /-- requests with their numbers and response handlers -/
  asked : List (Nat × H)
  /-- response handlers that were called -/
  answers : List (Nat × H × Answer)
  /-- messages that were written -/
  sent : List Sent
  /-- requests that could not be written -/
  unsent : List Nat
  /-- what was read -/
  heard : List (Except ReadError Json)
  /-- the messages that the main loop has begun to handle -/
  taken : List (Except ReadError Json)
  /-- the calls of `respond` -/
  replied : List (Nat × Response)

variable {N R H : Type}

/-- `BTreeMap::insert`. -/
def insertPending (id : Nat) (h : H) : List (Nat × H) → List (Nat × H)
  | [] => [(id, h)]
  | (k, v) :: rest => if id < k then (id, h) :: (k, v) :: rest else if id = k then (id, h) :: rest else (k, v) :: insertPending id h rest

/-- `BTreeMap::remove`. -/
def removePending (id : Nat) (p : List (Nat × H)) : List (Nat × H) := p.eraseP (fun x => x.1 == id)

/-- `RpcLoop::new`, lib.rs:214-227, and the beginning of `mainloop`, 257-263. -/
def State.start : State N R H := ⟨[], 0, [], [], [], false, false, 0, [], .top, .top, [], [], [], [], [], [], []⟩

/-- The next number of a request, lib.rs:467; an `AtomicUsize` wraps around. -/
def State.freshId (s : State N R H) : Nat := s.counter % 2 ^ 64

/-- `send_rpc_request_common` begins, lib.rs:466-467. -/
def State.number (s : State N R H) (h : H) : State N R H :=
  { s with counter := s.counter + 1, sending := s.sending ++ [⟨s.freshId, h, .numbered⟩], asked := s.asked ++ [(s.freshId, h)] }

/-- The rest of a failed send, lib.rs:477-480. -/
def State.giveUp (s : State N R H) (id : Nat) : State N R H :=
  match s.pending.lookup id with
  | some h => { s with pending := removePending id s.pending, answers := s.answers ++ [(id, h, .io)] }
  | none => s

/-- `disconnect` up to the last line, lib.rs:543-549: all under the lock. -/
def State.drain (s : State N R H) : State N R H :=
  { s with pending := [], answers := s.answers ++ s.pending.map (fun x => (x.1, x.2, .disconnected)) }

/-- What the reader does with a message, lib.rs:272-299. -/
def afterRead (m : Except ReadError Json) : Reader H :=
  match m with
  | .error e => .failed e
  | .ok j =>
    if isResponse j then
      match getId j with
      | none => .crashed
      | some id =>
        match intoResponse j with
        | none => .crashed
        | some (some r) => .answering id (.response r)
        | some none => .answering id .invalidResponse
    else .putting (.ok j)

/-- What the reader does after `put_rx`, lib.rs:279-280 and 298. -/
def afterPut : Except ReadError Json → Reader H
  | .error _ => .stopped
  | .ok _ => .top

/-- `handle_response` up to `invoke`, lib.rs:484-493. -/
def State.lookUp (s : State N R H) (id : Nat) (a : Answer) : State N R H :=
  match s.pending.lookup (id % 2 ^ 64) with
  | some h => { s with pending := removePending (id % 2 ^ 64) s.pending, reader := .invoking (id % 2 ^ 64) h a }
  | none => { s with reader := .top }

/-- What the main loop does with a message, lib.rs:322-339, once the idle work is done. `method.unwrap()` (325, 330)
crashes if there is no method. -/
def afterTake (parseN : Json → Option N) (parseR : Json → Option R) (j : Json) : Main N R :=
  match intoRpc parseN parseR j with
  | some (.request id r) => if (getMethod j).isSome then .working (.request id r) else .closing .panic
  | some (.notification n) => if (getMethod j).isSome then .working (.notification n) else .closing .panic
  | some (.invalidRequest id) => .responding id (.error (.invalidRequest none))
  | none => .closing (.error .unknownRequest)

/-- The end of the handler, lib.rs:324-332, 365-368, 373-376 and 314-317; `r` is the result for a request. -/
def afterWork (r : Response) : Work N R → Main N R
  | .idle _ => .top
  | .notification _ => .top
  | .request id _ => .responding id r
  | .last _ e => .closing (.error e)

/-- The response can be serialised: an unknown error cannot (error.rs:205-208). -/
def Response.serialises : Response → Bool
  | .result _ => true
  | .error e => e.toJson.isSome

/-- The timer that `peek` shows: one of those that fire first, lib.rs:530 and 575-585. -/
def firstTimer : List Timer → Option Timer
  | [] => none
  | t :: ts =>
    match firstTimer ts with
    | none => some t
    | some u => if u.fireAfter < t.fireAfter then some u else some t

/-- `check_timers`, lib.rs:528-540: the token of a timer that is due, and the other timers. -/
def checkTimers (now : Nat) (timers : List Timer) : Option (Nat × List Timer) :=
  match firstTimer timers with
  | none => none
  | some t => if t.fireAfter > now then none else some (t.token, timers.erase t)

/-- One step of some thread. -/
inductive Step (parseN : Json → Option N) (parseR : Json → Option R) : State N R H → State N R H → Prop
  /-- time passes -/
  | tick {s : State N R H} : Step parseN parseR s { s with now := s.now + 1 }
  /-- `schedule_idle`, lib.rs:437-439 -/
  | schedule {s : State N R H} (token : Nat) : Step parseN parseR s { s with idleQueue := s.idleQueue ++ [token] }
  /-- `schedule_timer`, lib.rs:441-443 -/
  | setTimer {s : State N R H} (t : Timer) : Step parseN parseR s { s with timers := t :: s.timers }
  /-- another thread begins `send_rpc_request`, lib.rs:426 -/
  | block {s : State N R H} : Step parseN parseR s { s with isBlocked := true }
  /-- another thread sends a request, lib.rs:467 -/
  | number {s : State N R H} (h : H) : Step parseN parseR s (s.number h)
  /-- lib.rs:468-471 -/
  | register {s : State N R H} {pre post : List (Sending H)} {id : Nat} {h : H} : s.sending = pre ++ ⟨id, h, .numbered⟩ :: post →
      Step parseN parseR s { s with sending := pre ++ ⟨id, h, .registered⟩ :: post, pending := insertPending id h s.pending }
  /-- lib.rs:472-476 -/
  | write {s : State N R H} {pre post : List (Sending H)} {id : Nat} {h : H} : s.sending = pre ++ ⟨id, h, .registered⟩ :: post →
      Step parseN parseR s { s with sending := pre ++ post, sent := s.sent ++ [.request id] }
  /-- the same, with an error -/
  | writeFails {s : State N R H} {pre post : List (Sending H)} {id : Nat} {h : H} : s.sending = pre ++ ⟨id, h, .registered⟩ :: post →
      Step parseN parseR s { s with sending := pre ++ ⟨id, h, .failed⟩ :: post, unsent := s.unsent ++ [id] }
  /-- lib.rs:477-480 -/
  | giveUp {s : State N R H} {pre post : List (Sending H)} {id : Nat} {h : H} : s.sending = pre ++ ⟨id, h, .failed⟩ :: post →
      Step parseN parseR s (({ s with sending := pre ++ post } : State N R H).giveUp id)
  /-- the reader begins, lib.rs:267 -/
  | readerTop {s : State N R H} : s.reader = .top → Step parseN parseR s { s with reader := if s.needsExit then .stopped else .reading }
  /-- a line is read, lib.rs:272 -/
  | read {s : State N R H} (l : Line) : s.reader = .reading → Step parseN parseR s { s with heard := s.heard ++ [l.read], reader := afterRead l.read }
  /-- lib.rs:275 -/
  | readFailed {s : State N R H} {e : ReadError} : s.reader = .failed e → Step parseN parseR s { s with reader := if s.isBlocked then .closing e else .putting (.error e) }
  /-- lib.rs:277 -/
  | readerClose {s : State N R H} {e : ReadError} : s.reader = .closing e → Step parseN parseR s { s.drain with reader := .flagging e }
  /-- lib.rs:550 -/
  | readerFlag {s : State N R H} {e : ReadError} : s.reader = .flagging e → Step parseN parseR s { s with needsExit := true, reader := .putting (.error e) }
  /-- lib.rs:279 and 298 -/
  | put {s : State N R H} {m : Except ReadError Json} : s.reader = .putting m → Step parseN parseR s { s with rxQueue := s.rxQueue ++ [m], reader := afterPut m }
  /-- lib.rs:486-489 -/
  | lookUp {s : State N R H} {id : Nat} {a : Answer} : s.reader = .answering id a → Step parseN parseR s (s.lookUp id a)
  /-- lib.rs:491 -/
  | invoke {s : State N R H} {id : Nat} {h : H} {a : Answer} : s.reader = .invoking id h a →
      Step parseN parseR s { s with answers := s.answers ++ [(id, h, a)], reader := .top }
  /-- lib.rs:360-362 and 382-384 -/
  | take {s : State N R H} {m : Except ReadError Json} {rest : List (Except ReadError Json)} : s.main = .top ∨ s.main = .wait → s.rxQueue = m :: rest →
      Step parseN parseR s { s with rxQueue := rest, main := .got m }
  /-- lib.rs:360-364 -/
  | nothing {s : State N R H} : s.main = .top → s.rxQueue = [] → Step parseN parseR s { s with main := .timers }
  /-- lib.rs:364-368 -/
  | timer {s : State N R H} {token : Nat} {rest : List Timer} : s.main = .timers → checkTimers s.now s.timers = some (token, rest) →
      Step parseN parseR s { s with timers := rest, main := .working (.idle token) }
  /-- lib.rs:369-371 -/
  | noTimer {s : State N R H} : s.main = .timers → checkTimers s.now s.timers = none → Step parseN parseR s { s with main := .idle }
  /-- lib.rs:373-376 -/
  | idle {s : State N R H} {token : Nat} {rest : List Nat} : s.main = .idle → s.idleQueue = token :: rest →
      Step parseN parseR s { s with idleQueue := rest, main := .working (.idle token) }
  /-- lib.rs:373-380 -/
  | noIdle {s : State N R H} : s.main = .idle → s.idleQueue = [] → Step parseN parseR s { s with main := .wait }
  /-- lib.rs:382-385, nothing in time -/
  | timeout {s : State N R H} : s.main = .wait → s.rxQueue = [] → Step parseN parseR s { s with main := .top }
  /-- lib.rs:310-316 -/
  | lastIdle {s : State N R H} {e : ReadError} {token : Nat} {rest : List Nat} : s.main = .got (.error e) → s.idleQueue = token :: rest →
      Step parseN parseR s { s with taken := s.taken ++ [.error e], idleQueue := rest, main := .working (.last token e) }
  /-- lib.rs:310-317 -/
  | noLastIdle {s : State N R H} {e : ReadError} : s.main = .got (.error e) → s.idleQueue = [] →
      Step parseN parseR s { s with taken := s.taken ++ [.error e], main := .closing (.error e) }
  /-- lib.rs:322-339 -/
  | handle {s : State N R H} {j : Json} : s.main = .got (.ok j) → Step parseN parseR s { s with taken := s.taken ++ [.ok j], main := afterTake parseN parseR j }
  /-- the handler ends -/
  | done {s : State N R H} {w : Work N R} (r : Response) : s.main = .working w → Step parseN parseR s { s with main := afterWork r w }
  /-- the handler panics, lib.rs:152-158 -/
  | panic {s : State N R H} {w : Work N R} : s.main = .working w → Step parseN parseR s { s with main := .closing .panic }
  /-- the handler calls `send_rpc_request`, lib.rs:426 -/
  | ask {s : State N R H} {w : Work N R} : s.main = .working w → Step parseN parseR s { s with isBlocked := true, main := .asking w }
  /-- lib.rs:428 and 467 -/
  | askNumber {s : State N R H} {w : Work N R} (h : H) : s.main = .asking w → Step parseN parseR s { s.number h with main := .awaiting w s.freshId }
  /-- the answer has come, lib.rs:429 -/
  | resume {s : State N R H} {w : Work N R} {id : Nat} : s.main = .awaiting w id → (∀ x ∈ s.sending, x.id ≠ id) → (∃ h a, (id, h, a) ∈ s.answers) →
      Step parseN parseR s { s with main := .working w }
  /-- `respond`, lib.rs:455-464 -/
  | reply {s : State N R H} {id : Nat} {r : Response} : s.main = .responding id r → r.serialises = true →
      Step parseN parseR s { s with replied := s.replied ++ [(id, r)], sent := s.sent ++ [.reply id r], main := .top }
  /-- the same, with an error when it is written -/
  | replyFails {s : State N R H} {id : Nat} {r : Response} : s.main = .responding id r → r.serialises = true →
      Step parseN parseR s { s with replied := s.replied ++ [(id, r)], main := .top }
  /-- the result cannot be serialised, lib.rs:459 -/
  | replyPanics {s : State N R H} {id : Nat} {r : Response} : s.main = .responding id r → r.serialises = false →
      Step parseN parseR s { s with replied := s.replied ++ [(id, r)], main := .closing .panic }
  /-- lib.rs:317, 336 and 156 -/
  | close {s : State N R H} {o : Outcome} : s.main = .closing o → Step parseN parseR s { s.drain with main := .flagging o }
  /-- lib.rs:550 -/
  | flag {s : State N R H} {o : Outcome} : s.main = .flagging o → Step parseN parseR s { s with needsExit := true, main := .finished o }

/-- Any number of steps. -/
inductive Steps (parseN : Json → Option N) (parseR : Json → Option R) : State N R H → State N R H → Prop
  | refl {s : State N R H} : Steps parseN parseR s s
  | step {s s1 s2 : State N R H} : Steps parseN parseR s s1 → Step parseN parseR s1 s2 → Steps parseN parseR s s2

end Rpc

end Xi
