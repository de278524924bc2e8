import Verif.Trace.FixedLifoDeque
import Verif.Wire.Codec

/-!
# Model of `rust/trace/src/lib.rs`

The tracer, with any number of threads.  Whether tracing is on is looked at without the lock (`is_enabled`), and the
sample is recorded later, with the lock; so these are two steps, between which others may come.  Turning tracing on
and off happens with the lock, and is one step.
-/

namespace Xi

namespace Tracer

open Wire (Sample EventType)

/-- What a sample takes from where it is made: the clock in nanoseconds, the thread and the process. -/
structure Here where
  now : Nat
  tid : Nat
  pid : Nat
  threadName : Option String

/-- What a sample is about. -/
structure Subject where
  name : String
  categories : List (List Char)
  payload : Option String

/-- `ns_to_us`, trace/lib.rs:363-365. -/
def toMicros (ns : Nat) : Nat := ns / 1000

/-- `Sample::new_duration_marker`, trace/lib.rs:431-452. -/
def marker (h : Here) (x : Subject) (ty : EventType) : Sample :=
  { name := x.name, categories := some x.categories, timestamp := toMicros h.now, eventType := ty, duration := none,
    pid := h.pid, tid := h.tid, threadName := h.threadName, args := some ⟨x.payload, none, none⟩ }

/-- `Sample::new_duration`, trace/lib.rs:455-477. -/
def complete (h : Here) (x : Subject) (start duration : Nat) : Sample :=
  { name := x.name, categories := some x.categories, timestamp := toMicros start, eventType := .completeDuration,
    duration := some (toMicros duration), pid := h.pid, tid := h.tid, threadName := h.threadName,
    args := some ⟨x.payload, none, none⟩ }

/-- `Sample::new_instant`, trace/lib.rs:480-496. -/
def instant (h : Here) (x : Subject) : Sample :=
  { name := x.name, categories := some x.categories, timestamp := toMicros h.now, eventType := .instant, duration := none,
    pid := h.pid, tid := h.tid, threadName := h.threadName, args := some ⟨x.payload, none, none⟩ }

/-- `Sample::new_metadata`, trace/lib.rs:498-517, for `ProcessName` and `ThreadName`, whose names are `process_name` and
`thread_name`, trace/lib.rs:319-338. -/
def metadata (timestampNs pid : Nat) (kind name : String) (tid : Nat) : Sample :=
  { name := kind, categories := none, timestamp := toMicros timestampNs, eventType := .metadata, duration := none,
    pid := pid, tid := tid, threadName := none, args := some ⟨none, some name, none⟩ }

/-- `impl PartialEq for Sample`, trace/lib.rs:520-530. -/
def same (a b : Sample) : Bool :=
  a.timestamp == b.timestamp && a.name == b.name && a.categories == b.categories && a.pid == b.pid && a.tid == b.tid &&
    decide (a.eventType = b.eventType) && decide (a.args = b.args)

/-- `struct Trace`, trace/lib.rs:624-627. -/
structure Trace where
  enabled : Bool
  samples : FixedLifoDeque Sample

/-- `Trace::disabled`, trace/lib.rs:630-632. -/
def Trace.disabled : Trace := ⟨false, .withLimit 0⟩

/-- `Trace::disable`, trace/lib.rs:641-645. -/
def Trace.disable (t : Trace) : Option Trace := do
  let samples ← t.samples.resetLimit 0
  return { t with samples := samples, enabled := false }

/-- `Trace::enable_config`, trace/lib.rs:652-656; `enable` (648-650) is this with the default limit. -/
def Trace.enable (t : Trace) (limit : Nat) : Option Trace := do
  let samples ← t.samples.resetLimit limit
  return { t with samples := samples, enabled := true }

/-- `Trace::record`, trace/lib.rs:670-673. -/
def Trace.record (t : Trace) (s : Sample) : Trace := { t with samples := t.samples.pushBack s }

/-- The tracer, the samples of threads that found tracing on and have not recorded yet, where `true` is for blocks,
and the guards, `SampleGuard` (trace/lib.rs:552-556), of blocks that have begun.  A guard without a sample does
nothing and is not listed. -/
structure Tracing where
  trace : Trace
  passed : List (Sample × Bool)
  guards : List Sample

/-- What threads do. -/
inductive Act where
  | enable (limit : Nat)
  | disable
  | instant (h : Here) (x : Subject)
  | block (h : Here) (x : Subject)
  | closure (h : Here) (x : Subject) (start finish : Nat)
  | record (i : Nat)
  | drop (i now : Nat)

/-- A sample passes the check `is_enabled`. -/
def Tracing.pass (w : Tracing) (s : Sample) (block : Bool) : Tracing :=
  if w.trace.enabled then { w with passed := w.passed ++ [(s, block)] } else w

/-- The sample at the end of a block, `SampleGuard::drop`, trace/lib.rs:590-592. -/
def endOf (s : Sample) (now : Nat) : Sample := { s with timestamp := toMicros now, eventType := .durationEnd }

/-- One step: `disable`, `enable_config`, the check of `instant` (trace/lib.rs:679-698), `block` (700-723) and `closure`
(725-768), the recording, with `SampleGuard::new` (565-584), and `SampleGuard::drop` (587-596). -/
def Tracing.step (w : Tracing) : Act → Option Tracing
  | .enable limit => do return { w with trace := ← w.trace.enable limit }
  | .disable => do return { w with trace := ← w.trace.disable }
  | .instant h x => some (w.pass (Tracer.instant h x) false)
  | .block h x => some (w.pass (marker h x .durationBegin) true)
  | .closure h x start finish =>
    if w.trace.enabled ∧ finish < start then none else some (w.pass (complete h x start (finish - start)) false)
  | .record i =>
    match w.passed[i]? with
    | none => some w
    | some (s, block) =>
      some { trace := w.trace.record s, passed := w.passed.eraseIdx i, guards := if block then w.guards ++ [s] else w.guards }
  | .drop i now =>
    match w.guards[i]? with
    | none => some w
    | some s => some { w with trace := w.trace.record (endOf s now), guards := w.guards.eraseIdx i }

/-- A sequence of steps. -/
def Tracing.run : Tracing → List Act → Option Tracing
  | w, [] => some w
  | w, a :: acts => (w.step a).bind fun w => w.run acts

/-- When the program starts, trace/lib.rs:833-835. -/
def Tracing.start : Tracing := ⟨.disabled, [], []⟩

/-- The loop over the names of threads, trace/lib.rs:789-802; `seen` is the map `thread_names`. -/
def threadNames (first pid : Nat) : List (Nat × String) → List Sample → List Sample
  | _, [] => []
  | seen, s :: rest =>
    match s.threadName with
    | none => threadNames first pid seen rest
    | some name =>
      if seen.lookup s.tid = some name then threadNames first pid ((s.tid, name) :: seen) rest
      else metadata first pid "thread_name" name s.tid :: threadNames first pid ((s.tid, name) :: seen) rest

/-- `Trace::samples_cloned_unsorted`, trace/lib.rs:770-806; `exe` is `exe_name()`. -/
def Trace.samplesCloned (t : Trace) (exe : Option String) (pid : Nat) : List Sample :=
  match t.samples.storage with
  | [] => []
  | front :: rest =>
    (match exe with
      | some name => [metadata front.timestamp pid "process_name" name front.tid]
      | none => []) ++
      threadNames front.timestamp pid [] (front :: rest) ++ (front :: rest)

/-- `Trace::samples_cloned_sorted`, trace/lib.rs:809-813, with the order of samples, trace/lib.rs:534-544, which looks at
times only.  `sort_unstable` of the standard library is not modelled: it may give any list with the same samples in
which no sample comes after one that is greater, so this is a relation. -/
def Trace.SamplesSorted (t : Trace) (exe : Option String) (pid : Nat) (out : List Sample) : Prop :=
  out.Perm (t.samplesCloned exe pid) ∧ out.Pairwise fun a b => a.timestamp ≤ b.timestamp

/-- `Trace::save`, trace/lib.rs:815-830, not sorted: what is written to the file, and `none` for an error.  It calls the
functions of the module, so `all` is the tracer of the program, trace/lib.rs:833-835, whatever `self` is. -/
def Trace.save (_self all : Trace) (exe : Option String) (pid : Nat) (exists_ : Bool) : Option (List Sample) :=
  if exists_ then none else some (all.samplesCloned exe pid)

end Tracer

end Xi
