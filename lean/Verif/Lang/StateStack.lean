/-!
# Stacks as numbers

Model of `rust/experimental/lang/src/statestack.rs`.  A panic is `none`.
-/

namespace Xi

namespace Lang

/-- `Entry`, statestack.rs:21-24. -/
structure Entry (α : Type) where
  top : α
  prev : Nat
deriving DecidableEq, Repr

/-- `Context`, statestack.rs:27-32; a state (20) is a number, and the table `next` a list of which the newest pair counts. -/
structure Context (α : Type) where
  entries : List (Entry α)
  next : List ((Nat × α) × Nat)
deriving DecidableEq, Repr

/-- `new`, statestack.rs:35-37. -/
def Context.new {α : Type} : Context α := ⟨[], []⟩

/-- `entry`, statestack.rs:39-45: the outer `none` is the panic of the index. -/
def Context.entry {α : Type} (ctx : Context α) (s : Nat) : Option (Option (Entry α)) :=
  if s = 0 then some none
  else (ctx.entries[s - 1]?).map some

/-- `tos`, statestack.rs:48-50. -/
def Context.tos {α : Type} (ctx : Context α) (s : Nat) : Option (Option α) := (ctx.entry s).map (fun e => e.map (·.top))

/-- `pop`, statestack.rs:52-54. -/
def Context.pop {α : Type} (ctx : Context α) (s : Nat) : Option (Option Nat) := (ctx.entry s).map (fun e => e.map (·.prev))

/-- `push`, statestack.rs:56-62. -/
def Context.push {α : Type} [DecidableEq α] (ctx : Context α) (s : Nat) (el : α) : Context α × Nat :=
  match ctx.next.find? (fun p => p.1 = (s, el)) with
  | some p => (ctx, p.2)
  | none =>
    let entries := ctx.entries ++ [⟨el, s⟩]
    (⟨entries, ((s, el), entries.length) :: ctx.next⟩, entries.length)

end Lang

end Xi
