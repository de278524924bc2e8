/-!
# Model of `rust/core-lib/src/core.rs`

The state of the core, `CoreState`, and what it does with messages are parameters.  The state is in a mutex: if a
thread panics while it holds the lock, the mutex is poisoned, and `lock().unwrap()` panics from then on.  A panic in the
main thread ends the process (`none`); one in the thread of a plugin ends that thread.
-/

namespace Xi

namespace Start

/-- The notifications of the front end, as far as core.rs tells them apart. -/
inductive Notification (κ ν : Type) where
  | tracingConfig (enabled : Bool)
  | clientStarted (dirs : κ)
  | other (n : ν)

/-- What `CoreState` does; `none` is a panic. -/
structure Inner (σ κ ν ρ π α : Type) where
  /-- `CoreState::new`. -/
  new : κ → σ
  /-- `CoreState::finish_setup`. -/
  finishSetup : σ → Option σ
  /-- `CoreState::client_notification`. -/
  notification : σ → Notification κ ν → Option σ
  /-- `CoreState::client_request`. -/
  request : σ → ρ → Option (σ × α)
  /-- `CoreState::handle_idle`. -/
  idle : σ → Nat → Option σ
  /-- `CoreState::plugin_notification`, `plugin_request`, `plugin_connect`, `plugin_exit` and `plugin_update`. -/
  plugin : σ → π → Option (σ × α)

/-- `enum XiCore`, core.rs:34-39.  `running none` is a poisoned mutex. -/
inductive XiCore (σ : Type) where
  | waiting
  | running (s : Option σ)

/-- What the core is called with: the methods of `Handler` for `XiCore`, core.rs:81-121, and, from the threads of
plugins, those of `WeakXiCore`, core.rs:123-184. -/
inductive Message (κ ν ρ π : Type) where
  | notification (n : Notification κ ν)
  | request (r : ρ)
  | idle (token : Nat)
  | plugin (m : π)

/-- The core and whether there is tracing in its process. -/
structure Process (σ : Type) where
  core : XiCore σ
  tracing : Bool

variable {σ κ ν ρ π α : Type}

/-- `self.inner()` and a call of it, core.rs:61-69: it panics while the core waits, and if the mutex is poisoned. -/
def XiCore.withInner (c : XiCore σ) (f : σ → Option σ) : Option (XiCore σ) :=
  match c with
  | .waiting => none
  | .running none => none
  | .running (some s) => (f s).map fun s => .running (some s)

/-- `handle_notification`, core.rs:85-112. -/
def Process.notify (i : Inner σ κ ν ρ π α) (p : Process σ) (n : Notification κ ν) : Option (Process σ) :=
  match n, p.core with
  | .tracingConfig enabled, .waiting => some { p with tracing := enabled }
  | .tracingConfig enabled, c => (c.withInner (i.notification · n)).map fun c => ⟨c, enabled⟩
  | .clientStarted dirs, .waiting => do
    let c ← (XiCore.running (some (i.new dirs))).withInner i.finishSetup
    let c ← c.withInner (i.notification · n)
    return { p with core := c }
  | .clientStarted _, .running _ => none
  | .other _, c => (c.withInner (i.notification · n)).map fun c => { p with core := c }

/-- What plugins and the front end are answered. -/
inductive Answer (α : Type) where
  | front (a : α)
  | plugin (a : α)

/-- `handle_notification`, `handle_request` (core.rs:114-116) and `idle` (core.rs:118-120) of `XiCore`; and those of
`WeakXiCore`, core.rs:131-183, while there is a core.  There are no plugins while the core waits. -/
def Process.handle (i : Inner σ κ ν ρ π α) (p : Process σ) : Message κ ν ρ π → Option (Process σ × Option (Answer α))
  | .notification n => (p.notify i n).map fun p => (p, none)
  | .request r =>
    match p.core with
    | .waiting => none
    | .running none => none
    | .running (some s) => (i.request s r).map fun x => ({ p with core := .running (some x.1) }, some (.front x.2))
  | .idle token => (p.core.withInner (i.idle · token)).map fun c => ({ p with core := c }, none)
  | .plugin m =>
    match p.core with
    | .waiting => some (p, none)
    | .running none => some (p, none)
    | .running (some s) =>
      match i.plugin s m with
      | none => some ({ p with core := .running none }, none)
      | some x => some ({ p with core := .running (some x.1) }, some (.plugin x.2))

/-- Messages one after the other, with the answers. -/
def Process.run (i : Inner σ κ ν ρ π α) : Process σ → List (Message κ ν ρ π) → Option (Process σ × List (Answer α))
  | p, [] => some (p, [])
  | p, m :: ms => do
    let (p, a) ← p.handle i m
    let (p, as) ← p.run i ms
    return (p, a.toList ++ as)

/-- `XiCore::new`, core.rs:47-49; tracing is off at first, trace/lib.rs:833-835. -/
def Process.new : Process σ := ⟨.waiting, false⟩

end Start

end Xi
