import Verif.Core.Sync

/-!
# What should be in the ledger, for C109
-/

namespace Xi

namespace Sync

variable {E B : Type}

/-- What is used of engines: `knows e k` says that the edit `k` is in `e`.  Merging knows what both know, an edit adds itself and gives the newest revision, an
engine knows its newest revision, and what is written is read back. -/
structure Lawful (o : Ops E B) (knows : E → Nat → Prop) : Prop where
  merge : ∀ a b k, knows (o.merge a b) k ↔ knows a k ∨ knows b k
  edit : ∀ e i k, knows (o.edit e i) k ↔ knows e k ∨ k = i
  headEdit : ∀ e i, o.head (o.edit e i) = i
  head : ∀ e, knows e (o.head e)
  read : ∀ e, o.decode (o.encode e) = some e

/-- A store is attached only where there is none. -/
def Attaches (s : State E B) : Action B → Prop
  | .attach => ∀ ed, s.editor = some ed → ed.store = none
  | _ => True

/-- New edits have new ids, transactions are granted, and neither the updater nor the buffer ends. -/
def Allowed (knows : E → Nat → Prop) (s : State E B) : Action B → Prop
  | .edit id => ∀ ed, s.editor = some ed → ¬ knows ed.engine id
  | .answer ok => ok = true
  | .stop => False
  | .close => False
  | a => Attaches s a

/-- All actions are as `P` says, each in the state in which it happens. -/
def Along (o : Ops E B) (P : State E B → Action B → Prop) : State E B → List (Action B) → Prop
  | _, [] => True
  | s, a :: as => P s a ∧ ∀ s', s.step o a = some s' → Along o P s' as

/-- The edits after the store was attached. -/
def edits : List (Action B) → Bool → List Nat
  | [], _ => []
  | .attach :: as, _ => edits as true
  | .edit id :: as, on => if on then id :: edits as on else edits as on
  | _ :: as, on => edits as on

/-- The message that a transaction was granted. -/
def isReady : Msg B → Bool
  | .ready => true
  | _ => false

/-- What was last put into the ledger has the edit `k`. -/
def Stored (o : Ops E B) (knows : E → Nat → Prop) (s : State E B) (k : Nat) : Prop := ∃ b e, s.stored.head? = some b ∧ o.decode b = some e ∧ knows e k

end Sync

end Xi
