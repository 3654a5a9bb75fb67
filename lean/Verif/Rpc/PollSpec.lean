import Verif.Rpc.Poll
import Verif.Rpc.LogsSpec

/-!
# What the owner of a polling filter may expect
-/

namespace Poll

open LogQuery (Log Matches)

/-- The node reported this event. -/
def Reported (s : State) (e : Ev) : Prop := s.log[e.no]? = some e

/-- The log was asked for: it matches, and its block is within those bounds that are block numbers. -/
def Asked (c : Crit) (l : Log) : Prop :=
  Matches c.crit l ∧
  (∀ f : Int, c.fromBlock = some f → 0 ≤ f → f ≤ l.block) ∧
  (∀ t : Int, c.toBlock = some t → 0 ≤ t → (l.block : Int) ≤ t)

/-- `got` is what is left of `all` when what was not asked for is dropped, in the same order. -/
inductive Chosen (c : Crit) : List Log → List Log → Prop
  | nil : Chosen c [] []
  | take {l all got} : Asked c l → Chosen c all got → Chosen c (l :: all) (l :: got)
  | skip {l all got} : ¬ Asked c l → Chosen c all got → Chosen c (l :: all) got

/-- What a filter gives for one event: the chosen logs of the first message of the transaction, the
hash of the header, or the hashes of the Ethereum transactions. -/
inductive News (c : Crit) : Body → List Item → Prop
  | first {r rs ls} : Chosen c r ls → News c (.txLogs (some (r :: rs))) (ls.map .log)
  | empty : News c (.txLogs (some [])) []
  | header {h} : News c (.header h) [.hash h]
  | txs {hs} : News c (.txHashes hs) (hs.map .hash)

/-- What a filter gives for several events, one after the other. -/
inductive Told (c : Crit) : List Ev → List Item → Prop
  | nil : Told c [] []
  | cons {e es is js} : News c e.body is → Told c es js → Told c (e :: es) (is ++ js)

/-- The filter works: it is in the table, its goroutine waits, and the topic is open, with nothing on
its way. -/
structure Working (s : State) (i c : Nat) (f : Fil) (p : Pub) : Prop where
  fil : s.fil i = some f
  listed : f.listed = true
  running : f.running = true
  holding : f.holding = none
  subscribed : f.subscribed = true
  chan : s.chan f.kind = some c
  pub : s.pub c = some p
  kind : p.kind = f.kind
  opened : p.closed = false
  idle : p.holding = none
  inflight : s.inflight = none
  up : s.crashed = false

end Poll
