import Verif.Wire.Codec

/-!
# What a tracer is for
-/

namespace Xi

namespace Tracer

open Wire (Sample EventType)

/-- What happened to the store, in order: a new limit, or a sample. -/
inductive Entry where
  | limit (n : Nat)
  | sample (s : Sample)

/-- The samples of a log. -/
def recorded (log : List Entry) : List Sample :=
  log.filterMap fun e => match e with | .limit _ => none | .sample s => some s

/-- The limit in force. -/
def limitOf (log : List Entry) : Nat :=
  log.foldl (fun n e => match e with | .limit m => m | .sample _ => n) 0

/-- How the number of samples that are kept changes: first the limit, then the number. -/
def count (c : Nat × Nat) : Entry → Nat × Nat
  | .limit n => (n, min c.2 n)
  | .sample _ => (c.1, min (c.2 + 1) c.1)

/-- How many samples are kept: one more with each, but never more than the limit in force. -/
def kept (log : List Entry) : Nat := (log.foldl count (0, 0)).2

/-- What the beginning and the end of a block have in common. -/
def blockOf (s : Sample) : Sample := { s with timestamp := 0, eventType := .durationBegin }

/-- How often the block `b` begins. -/
def begins (b : Sample) (l : List Sample) : Nat :=
  l.countP fun s => decide (s.eventType = .durationBegin) && decide (blockOf s = b)

/-- How often the block `b` ends. -/
def ends (b : Sample) (l : List Sample) : Nat :=
  l.countP fun s => decide (s.eventType = .durationEnd) && decide (blockOf s = b)

/-- The names that a thread has in turn. -/
def runs : List String → List String
  | [] => []
  | [n] => [n]
  | n :: m :: ns => if n = m then runs (m :: ns) else n :: runs (m :: ns)

/-- The names of a thread in samples. -/
def namesOf (tid : Nat) (l : List Sample) : List String :=
  l.filterMap fun s => if s.tid = tid then s.threadName else none

/-- The names that samples of metadata give to a thread. -/
def givenTo (tid : Nat) (l : List Sample) : List String :=
  l.filterMap fun s => if s.tid = tid ∧ s.name = "thread_name" ∧ s.eventType = .metadata then s.args.bind (·.name) else none

end Tracer

end Xi
