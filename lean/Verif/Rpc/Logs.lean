/-!
# Queries for logs

Models `eth_getLogs`: the filter of logs and the test of the block's bloom filter
(/repo/helios-chain/rpc/namespaces/ethereum/eth/filters/utils.go, lines 10-88), the search over
blocks (/repo/helios-chain/rpc/namespaces/ethereum/eth/filters/filters.go, lines 91-224, and
api.go, lines 519-545), and how a block comes by its bloom filter and its logs
(/repo/helios-chain/x/evm/keeper/state_transition.go, lines 181-249, and
/repo/helios-chain/x/evm/keeper/abci.go, lines 39-49).

Addresses and topics are numbers. The three bits the bloom filter sets for an address or a topic are
a parameter: a mask for each. The CometBFT node gives the results of the blocks it has, and an error
for every other height.
-/

namespace LogQuery

/-- A log: the block it is in, its address, its topics, and a number for the rest. -/
structure Log where
  block : Nat
  address : Nat
  topics : List Nat
  rest : Nat
  deriving DecidableEq, Repr

/-- What is asked for: any of these addresses, and for each position any of these topics. -/
structure Criteria where
  addresses : List Nat
  topics : List (List Nat)
  deriving DecidableEq, Repr

/-! ## The filter of logs -/

/-- `includes` (utils.go lines 50-58). -/
def includes : List Nat → Nat → Bool
  | [], _ => false
  | x :: xs, a => if x = a then true else includes xs a

/-- The loop over the topics of the criteria (utils.go lines 33-44), from one position on. It is
reached with at least as many topics in the log. -/
def topicsFit : List (List Nat) → List Nat → Bool
  | [], _ => true
  | _ :: _, [] => false
  | sub :: subs, t :: ts => (decide (sub.length = 0) || includes sub t) && topicsFit subs ts

/-- One pass of the loop of `FilterLogs` (utils.go lines 20-44): is the log kept? -/
def keeps (fromBlock toBlock : Option Int) (c : Criteria) (l : Log) : Bool :=
  match fromBlock with
  | some f => if 0 ≤ f ∧ (l.block : Int) < f then false else tail
  | none => tail
where
  tail : Bool :=
    match toBlock with
    | some t => if 0 ≤ t ∧ t < (l.block : Int) then false else body
    | none => body
  body : Bool :=
    if c.addresses.length > 0 ∧ includes c.addresses l.address = false then false
    else if c.topics.length > l.topics.length then false
    else topicsFit c.topics l.topics

/-- `FilterLogs` (utils.go lines 16-48). -/
def filterLogs (fromBlock toBlock : Option Int) (c : Criteria) : List Log → List Log
  | [] => []
  | l :: ls =>
    if keeps fromBlock toBlock c l then l :: filterLogs fromBlock toBlock c ls
    else filterLogs fromBlock toBlock c ls

/-! ## Bloom filters -/

/-- What is put into a bloom filter. -/
inductive Item
  | address (a : Nat)
  | topic (t : Nat)
  deriving DecidableEq, Repr

/-- `BloomLookup` of go-ethereum: are all bits of the item set? -/
def lookup (mask : Item → Nat) (bloom : Nat) (i : Item) : Bool :=
  decide (bloom &&& mask i = mask i)

/-- The loops of `bloomFilter` over addresses or topics (utils.go lines 64-69, 77-82). -/
def anyIn (mask : Item → Nat) (bloom : Nat) : List Item → Bool
  | [] => false
  | i :: is => if lookup mask bloom i then true else anyIn mask bloom is

/-- The loop of `bloomFilter` over the positions (utils.go lines 75-86). -/
def topicsIn (mask : Item → Nat) (bloom : Nat) : List (List Nat) → Bool
  | [] => true
  | sub :: subs =>
    (decide (sub.length = 0) || anyIn mask bloom (sub.map .topic)) && topicsIn mask bloom subs

/-- `bloomFilter` (utils.go lines 61-88). -/
def bloomFilter (mask : Item → Nat) (bloom : Nat) (c : Criteria) : Bool :=
  if c.addresses.length > 0 ∧ anyIn mask bloom (c.addresses.map .address) = false then false
  else topicsIn mask bloom c.topics

/-- The bits of some items. -/
def itemsBloom (mask : Item → Nat) : List Item → Nat
  | [] => 0
  | i :: is => mask i ||| itemsBloom mask is

/-- `LogsBloom` of go-ethereum: the bits of the addresses and topics of some logs. -/
def logsBloom (mask : Item → Nat) : List Log → Nat
  | [] => 0
  | l :: ls => itemsBloom mask (.address l.address :: l.topics.map .topic) ||| logsBloom mask ls

/-! ## Blocks -/

/-- An executed Ethereum transaction: the logs it emitted, and whether the hooks after it
succeeded. -/
structure Tx where
  emitted : List Log
  hooksOk : Bool
  deriving DecidableEq, Repr

/-- The logs of a transaction in the events of the block (state_transition.go lines 218-235): none
when the hooks failed. (No hook of this chain alters the logs.) -/
def reported (t : Tx) : List Log := if t.hooksOk then t.emitted else []

/-- The transient bloom filter after a transaction (state_transition.go lines 183-188, 244-248). -/
def addBloom (mask : Item → Nat) (bloom : Nat) (t : Tx) : Nat :=
  if t.emitted.length > 0 then bloom ||| logsBloom mask t.emitted else bloom

/-- The bloom filter in the event of the block (abci.go lines 43-44, rpc/backend/blocks.go lines
409-424). -/
def blockBloom (mask : Item → Nat) (txs : List Tx) : Nat := txs.foldl (addBloom mask) 0

/-- The chain as the node sees it: the blocks it has results for, from `base` to `head`, the
transactions of each block, the logs of its scheduled calls, and the heights of block hashes. -/
structure Chain where
  base : Nat
  head : Nat
  txs : Nat → List Tx
  cron : Nat → List Log
  heightOf : Nat → Option Nat

/-- The node has the results of this block (rpc/backend/blocks.go lines 250-252). -/
def hasResults (ch : Chain) (h : Int) : Bool := decide ((ch.base : Int) ≤ h ∧ h ≤ ch.head)

/-- `GetLogsFromBlockResults` (rpc/backend/utils.go lines 272-283). -/
def resultLogs (ch : Chain) (h : Nat) : List Log := ((ch.txs h).map reported).flatten

/-- `blockLogs` (filters.go lines 188-209). -/
def blockLogs (mask : Item → Nat) (ch : Chain) (c : Criteria) (h : Nat) : List Log :=
  if bloomFilter mask (blockBloom mask (ch.txs h)) c then filterLogs none none c (resultLogs ch h)
  else []

/-- `cronBlockLogs` (filters.go lines 212-224). -/
def cronBlockLogs (ch : Chain) (c : Criteria) (h : Nat) : List Log :=
  filterLogs none none c (ch.cron h)

/-! ## The query -/

/-- What comes back: an error, a crash of the handler, or logs. -/
inductive Reply
  | error
  | crash
  | logs (ls : List Log)
  deriving DecidableEq, Repr

/-- The loop over the heights (filters.go lines 159-184), with the number of heights left. -/
def scan (mask : Item → Nat) (ch : Chain) (c : Criteria) (logLimit : Nat) :
    Nat → Int → List Log → Reply
  | 0, _, acc => .logs acc
  | n + 1, h, acc =>
    if hasResults ch h then
      if acc.length + (blockLogs mask ch c h.toNat).length +
          (cronBlockLogs ch c h.toNat).length > logLimit then .error
      else scan mask ch c logLimit n (h + 1)
        (acc ++ blockLogs mask ch c h.toNat ++ cronBlockLogs ch c h.toNat)
    else .logs []

/-- The meaning of a block number in the criteria (filters.go lines 134-143). -/
def actual (ch : Chain) (n : Int) : Int := if n < 0 then ch.head else if n = 0 then 1 else n

/-- `maxToOverhang` (filters.go line 92). -/
def overhang : Int := 600

/-- The upper end of the scan (filters.go lines 152-154). -/
def lastHeight (ch : Chain) (t : Int) : Int :=
  if t > ch.head + overhang then ch.head + overhang else t

/-- `Logs` for a range of blocks (filters.go lines 122-184). -/
def rangeLogs (mask : Item → Nat) (ch : Chain) (c : Criteria) (logLimit : Nat) (blockLimit : Int)
    (fromBlock toBlock : Int) : Reply :=
  if actual ch toBlock - actual ch fromBlock > blockLimit then .error
  else if actual ch fromBlock > ch.head then .logs []
  else scan mask ch c logLimit
    (lastHeight ch (actual ch toBlock) + 1 - actual ch fromBlock).toNat (actual ch fromBlock) []

/-- `Logs` for one block given by its hash (filters.go lines 102-120). A hash the node does not know
gives no block and no error, and the handler looks into the missing block
(rpc/backend/blocks.go lines 255-268). -/
def hashLogs (mask : Item → Nat) (ch : Chain) (c : Criteria) (hash : Nat) : Reply :=
  match ch.heightOf hash with
  | none => .crash
  | some h => if hasResults ch h then .logs (blockLogs mask ch c h) else .logs []

end LogQuery
