import Verif.Rpc.Logs

/-!
# What a query for logs should give

The logs of the blocks asked for, in order, that match the criteria.
-/

namespace LogQuery

/-- The log matches: its address is one of those asked for, if any are, and at every position with
topics asked for it has one of them; a position that is listed at all must exist in the log. -/
def Matches (c : Criteria) (l : Log) : Prop :=
  (c.addresses = [] ∨ l.address ∈ c.addresses) ∧
  ∀ (i : Nat) (sub : List Nat), c.topics[i]? = some sub →
    ∃ t, l.topics[i]? = some t ∧ (sub = [] ∨ t ∈ sub)

/-- All logs of a block: those of its transactions, then those of its scheduled calls. -/
def allLogs (ch : Chain) (h : Nat) : List Log := ((ch.txs h).map reported).flatten ++ ch.cron h

/-- All logs of `n` blocks from one height on. -/
def logsFrom (ch : Chain) : Nat → Nat → List Log
  | _, 0 => []
  | h, n + 1 => allLogs ch h ++ logsFrom ch (h + 1) n

/-- `got` is what is left of `all` when what does not match is dropped, in the same order. -/
inductive Picked (c : Criteria) : List Log → List Log → Prop
  | nil : Picked c [] []
  | take {l all got} : Matches c l → Picked c all got → Picked c (l :: all) (l :: got)
  | drop {l all got} : ¬ Matches c l → Picked c all got → Picked c (l :: all) got

end LogQuery
