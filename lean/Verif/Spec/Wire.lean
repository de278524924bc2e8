import Verif.Rpc.Parse

/-!
# What messages mean
-/

namespace Xi

namespace Wire

open Rpc (Json)

/-- The digits, in order. -/
def digitList : List Char := ['0', '1', '2', '3', '4', '5', '6', '7', '8', '9']

/-- `Numeral s n`: the digits `s`, of which there is at least one, are the number `n` in the decimal system. -/
inductive Numeral : List Char → Nat → Prop
  | one (d : Nat) (h : d < 10) : Numeral [digitList[d]] d
  | more (s : List Char) (n : Nat) (hs : Numeral s n) (d : Nat) (h : d < 10) :
    Numeral (s ++ [digitList[d]]) (10 * n + d)

/-- The texts that are read as the id `n` of a view: any number of prefixes, perhaps a plus, and the number. -/
def NamesView (s : List Char) (n : Nat) : Prop :=
  ∃ (k : Nat) (plus : Bool) (ds : List Char),
    s = (List.replicate k "view-id-".toList).flatten ++ ((if plus then ['+'] else []) ++ ds) ∧ Numeral ds n

/-- How a command with a tag is read: of an object, only `method` and `params` count. -/
def ByMethod {τ : Type} (read : Json → Option (Option τ)) : Prop :=
  ∀ f g : List (String × Json), f.lookup "method" = g.lookup "method" → f.lookup "params" = g.lookup "params" →
    read (.obj f) = read (.obj g)

/-- How a command is read whose parameters have names: whatever else is in the parameters does not count. -/
def ByName {τ : Type} (read : Json → Option (Option τ)) : Prop :=
  ∀ f g p q : List (String × Json), f.lookup "method" = g.lookup "method" →
    f.lookup "params" = some (.obj p) → g.lookup "params" = some (.obj q) →
    (∀ key, key ≠ "view_id" → key ≠ "plugin_id" → p.lookup key = q.lookup key) →
    read (.obj f) = read (.obj g)

end Wire

end Xi
