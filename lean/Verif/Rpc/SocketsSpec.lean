import Verif.Rpc.Sockets
import Verif.Rpc.LogsSpec

/-!
# What the user of a WebSocket connection may expect
-/

namespace Sock

open LogQuery (Log Criteria Picked)

/-! ## JSON -/

mutual
/-- All numbers are at most 2^53. -/
def Small : Json → Prop
  | .num n => n ≤ 2 ^ 53
  | .arr es => Smalls es
  | .obj fs => Smallf fs
  | _ => True
def Smalls : Jsons → Prop
  | .nil => True
  | .cons j js => Small j ∧ Smalls js
def Smallf : Fields → Prop
  | .nil => True
  | .cons _ v fs => Small v ∧ Smallf fs
end

/-- The fields as a list. -/
def Fields.list : Fields → List (Text × Json)
  | .nil => []
  | .cons n v fs => (n, v) :: fs.list

/-! ## Criteria of a subscription to logs, as in the description of the API -/

/-- Left out, or null. -/
def Unset (j : Option Json) : Prop := j = none ∨ j = some .null

/-- The address is asked for: none is named, or it is the one named, or one of those listed (an empty list
is any). -/
def AddressWanted (env : Env) (j : Option Json) (a : Nat) : Prop :=
  Unset j ∨ (∃ t, j = some (.str t) ∧ a = env.toAddr t) ∨
  ∃ es, j = some (.arr es) ∧ (es.list = [] ∨ ∃ t, .str t ∈ es.list ∧ a = env.toAddr t)

/-- The topic is asked for at its position: null, or the one named, or one of those listed (an empty list
is any). -/
def TopicWanted (env : Env) (j : Json) (x : Nat) : Prop :=
  j = .null ∨ (∃ t, j = .str t ∧ x = env.toHash t) ∨
  ∃ es, j = .arr es ∧ (es.list = [] ∨ ∃ t, .str t ∈ es.list ∧ x = env.toHash t)

/-- The topics are asked for: at every position listed there is one, which is asked for. -/
def TopicsWanted (env : Env) (j : Option Json) (ts : List Nat) : Prop :=
  Unset j ∨ ∃ es, j = some (.arr es) ∧
    ∀ (i : Nat) (p : Json), es.list[i]? = some p → ∃ x, ts[i]? = some x ∧ TopicWanted env p x

def LogWanted (env : Env) (j : Option Json) (l : Log) : Prop :=
  Unset j ∨ ∃ fs, j = some (.obj fs) ∧ AddressWanted env (fs.get (text "address")) l.address ∧
    TopicsWanted env (fs.get (text "topics")) l.topics

/-- Only strings. -/
def Strings (es : Jsons) : Prop := ∀ j ∈ es.list, ∃ t, j = .str t

/-- Criteria of the right shape. -/
def GoodCriteria (j : Option Json) : Prop :=
  Unset j ∨ ∃ fs, j = some (.obj fs) ∧
    (Unset (fs.get (text "address")) ∨ (∃ t, fs.get (text "address") = some (.str t)) ∨
      ∃ es, fs.get (text "address") = some (.arr es) ∧ Strings es) ∧
    (Unset (fs.get (text "topics")) ∨
      ∃ es, fs.get (text "topics") = some (.arr es) ∧
        ∀ p ∈ es.list, p = .null ∨ (∃ t, p = .str t) ∨ ∃ xs, p = .arr xs ∧ Strings xs)

/-! ## Notifications -/

/-- What a goroutine should notify of for one event: the header of the block (its number, parent, time and
state root), the matching logs of the first message of the transaction, the matching logs of the scheduled
calls of the block as far as the backend gives them, or the hashes of the Ethereum transactions. -/
inductive News : Job → Body → List Item → Prop
  | head {b : Block} {h : Head} : h.number = b.height → h.parent = b.parent → h.time = b.time →
      h.stateRoot = b.stateRoot → News .heads (.header b) [.head h]
  | first {c r rs ls} : Picked c r ls → News (.txLogs c) (.txLogs (some (r :: rs))) (ls.map .log)
  | none {c} : News (.txLogs c) (.txLogs (some [])) []
  | cron {c b ls got} : b.cron = some ls → Picked c ls got → News (.cronLogs c) (.header b) (got.map .log)
  | noCron {c b} : b.cron = Option.none → News (.cronLogs c) (.header b) []
  | txs {hs} : News .pending (.txHashes hs) (hs.map .hash)

/-- What it should notify of for several events, one after the other. -/
inductive Told (j : Job) : List Ev → List Item → Prop
  | nil : Told j [] []
  | snoc {es e is js} : Told j es is → News j e.body js → Told j (es ++ [e]) (is ++ js)

/-- What goroutine `j` wrote, in order. -/
def byGor (j : Nat) : Out → Option Item
  | .note _ k i => if k = j then some i else none
  | _ => none

def notesBy (j : Nat) (out : List Out) : List Item := out.filterMap (byGor j)

/-- The header of the block as `eth_getBlockByNumber` gives it (rpc/types/utils.go lines 123-166), as far
as modelled. -/
def AsQueried (b : Block) (h : Head) : Prop :=
  h.number = b.height ∧ h.parent = b.parent ∧ h.time = b.time ∧ h.stateRoot = b.stateRoot ∧
  h.baseFee = b.baseFee ∧ h.bloom = b.bloom ∧
  h.txRoot = if b.hasTxs then b.dataHash.getD 0 else emptyRoot

end Sock
