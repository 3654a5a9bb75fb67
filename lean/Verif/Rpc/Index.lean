import Verif.Lib.Bytes
import Verif.Lib.KV
/-!
# The index of Ethereum transactions

Models what the execution of a block reports about its Ethereum transactions
(/repo/helios-chain/app/ante/evm/12_emit_event.go, lines 20-62,
/repo/helios-chain/x/evm/keeper/msg_server.go, lines 29-130, and the transaction counter of
/repo/helios-chain/x/evm/keeper/state_transition.go, line 250), how those events are read back
(/repo/helios-chain/rpc/types/events.go, lines 77-260), the list of a block's Ethereum transactions
(/repo/helios-chain/rpc/backend/blocks.go, lines 305-342), the transaction index
(/repo/helios-chain/indexer/kv_indexer.go, lines 48-229) with the service that fills it
(/repo/helios-chain/server/indexer_service.go, lines 40-109), and the look-ups of one transaction
(/repo/helios-chain/rpc/backend/tx_info.go, lines 551-647).

Hashes are numbers, the bytes of keys are kept. The encodings of numbers in events and of records in
the database are not modelled, nor are the fields of a transaction that take no part here.
-/

namespace EthIndex

open Bytes (be unbe)

/-- An attribute of an event (/repo/helios-chain/x/evm/types/events.go, lines 9-27): those read by
`fillTxAttribute` (events.go lines 231-251), and the rest. -/
inductive Attr
  | hash (h : Nat)
  | index (i : Nat)
  | used (g : Nat)
  | error (e : List UInt8)
  | other
  deriving DecidableEq, Repr

/-- An event: `ethereum_tx`, `tx_log` with the logs its attributes hold, or another. -/
inductive Event
  | eth (attrs : List Attr)
  | log (logs : List Nat)
  | other
  deriving DecidableEq, Repr

/-- A `MsgEthereumTx` with what its execution gives, if it is executed: its hash, its gas limit, does
it create a contract, the gas used, the error of the virtual machine (empty for none), its logs. -/
structure Msg where
  hash : Nat
  gas : Nat
  create : Bool
  used : Nat
  error : List UInt8
  logs : List Nat
  deriving DecidableEq, Repr

/-- A Cosmos transaction of a block: do its bytes decode, is its only extension option the Ethereum
one (`isEthTx`, kv_indexer.go lines 199-209), and its messages (`none`: of another kind). -/
structure Tx where
  decodes : Bool
  ext : Bool
  msgs : List (Option Msg)
  deriving DecidableEq, Repr

/-- What becomes of a transaction: it is executed; it fails with one of the two errors after which it
still counts, the block gas limit or the commit of the EVM state; it fails otherwise, in the ante
handler or after it. -/
inductive Fate
  | ok
  | spent
  | refused (afterAnte : Bool)
  deriving DecidableEq, Repr

/-- A transaction of a block, its fate and the gas its result shows. -/
structure Step where
  tx : Tx
  fate : Fate
  gas : Nat
  deriving DecidableEq, Repr

/-- The result of a transaction: its code, does its log hold one of the two error texts
(/repo/helios-chain/rpc/types/utils.go, lines 448-455), its gas and its events. -/
structure Result where
  code : Nat
  known : Bool
  gasUsed : Nat
  events : List Event
  deriving DecidableEq, Repr

/-- The Ethereum messages of a transaction. -/
def Tx.eths (t : Tx) : List Msg := t.msgs.filterMap id

/-! ## Execution -/

/-- The events of the ante handler (12_emit_event.go lines 33-40 and 51-61): hash and index. -/
def anteEvents (idx : Nat) : List Msg → List Event
  | [] => []
  | m :: ms => .eth [.hash m.hash, .index idx] :: anteEvents (idx + 1) ms

/-- The attributes of one executed message (msg_server.go lines 78-100). -/
def msgAttrs (idx : Nat) (m : Msg) : List Attr :=
  [.other, .hash m.hash, .index idx, .used m.used, .other]
    ++ (if m.create then [] else [.other]) ++ (if m.error.length > 0 then [.error m.error] else [])

/-- The events of the executed messages (msg_server.go lines 111-127). The counter goes up by one
with each of them (state_transition.go line 250). -/
def msgEvents (idx : Nat) : List Msg → List Event
  | [] => []
  | m :: ms => .eth (msgAttrs idx m) :: .log m.logs :: .other :: msgEvents (idx + 1) ms

/-- One transaction, with the counter of the block's Ethereum transactions before and after. When it
fails, what its messages wrote is dropped, the counter and their events with it. -/
def exec (idx : Nat) (s : Step) : Result × Nat :=
  match s.fate with
  | .ok =>
    if s.tx.ext then
      (⟨0, false, s.gas, anteEvents idx s.tx.eths ++ msgEvents idx s.tx.eths⟩, idx + s.tx.eths.length)
    else (⟨0, false, s.gas, [.other]⟩, idx)
  | .spent => (⟨11, true, s.gas, if s.tx.ext then anteEvents idx s.tx.eths else [.other]⟩, idx)
  | .refused after => (⟨5, false, s.gas, if s.tx.ext ∧ after then anteEvents idx s.tx.eths else []⟩, idx)

/-- A block: its transactions with their results. -/
def execBlock (idx : Nat) : List Step → List (Tx × Result)
  | [] => []
  | s :: ss => (s.tx, (exec idx s).1) :: execBlock (exec idx s).2 ss

/-! ## Events read back -/

/-- `ParsedTx` (events.go lines 50-65); `ethIndex = none` for -1. -/
structure Parsed where
  hash : Nat
  ethIndex : Option Nat
  used : Nat
  failed : Bool
  deriving DecidableEq, Repr

/-- `fillTxAttribute` (events.go lines 231-251). -/
def fill (p : Parsed) : Attr → Parsed
  | .hash h => { p with hash := h }
  | .index i => { p with ethIndex := some i }
  | .used g => { p with used := g }
  | .error e => { p with failed := decide (e.length > 0) }
  | .other => p

/-- `fillTxAttributes` on a new `ParsedTx` (events.go lines 63-65 and 253-260). -/
def fillAll (attrs : List Attr) : Parsed := attrs.foldl fill ⟨0, none, 0, false⟩

/-- What `ParseTxResult` holds while it reads: is the format known and is it the first one, how many
events of the second part it has seen, what it has found (events.go lines 78-84). The index of an
entry is its message index, so it is left out. -/
structure Reading where
  format1 : Option Bool
  seen : Nat
  txs : List Parsed
  deriving DecidableEq, Repr

/-- The format, set at the first event (events.go lines 90-97). -/
def format (r : Reading) (attrs : List Attr) : Bool :=
  match r.format1 with
  | some f => f
  | none => decide (attrs.length > 2)

/-- One event (events.go lines 85-119); `none` for an index out of range. -/
def read (r : Reading) : Event → Option Reading
  | .log _ => some r
  | .other => some r
  | .eth attrs =>
    if attrs.length = 2 then
      some ⟨some (format r attrs), r.seen, r.txs ++ [fillAll attrs]⟩
    else if format r attrs then
      some ⟨some true, r.seen + 1, r.txs ++ [fillAll attrs]⟩
    else if r.seen < r.txs.length then
      some ⟨some false, r.seen + 1, r.txs.set r.seen (fillAll attrs)⟩
    else none

/-- All events (events.go lines 85-119). -/
def readAll : Reading → List Event → Option Reading
  | r, [] => some r
  | r, e :: es => match read r e with
    | none => none
    | some r' => readAll r' es

/-- A single entry gets the gas of the result (events.go lines 121-125). -/
def single (gas : Nat) : List Parsed → List Parsed
  | [p] => [{ p with used := gas }]
  | ps => ps

/-- When the transaction failed every entry has failed and used its gas limit (events.go lines
127-136); `none` when there are more entries than messages or a message is of another kind. -/
def spendAll : List Parsed → List (Option Msg) → Option (List Parsed)
  | [], _ => some []
  | p :: ps, some m :: ms => (spendAll ps ms).map ({ p with failed := true, used := m.gas } :: ·)
  | _ :: _, _ => none

/-- `ParseTxResult` (events.go lines 77-138), with the decoded transaction. -/
def parse (r : Result) (t : Tx) : Option (List Parsed) :=
  match readAll ⟨none, 0, []⟩ r.events with
  | none => none
  | some rd =>
    if r.code ≠ 0 then spendAll (single r.gasUsed rd.txs) t.msgs
    else some (single r.gasUsed rd.txs)

/-! ## The list of a block's Ethereum transactions -/

/-- `TxSucessOrExpectedFailure` (rpc/types/utils.go lines 457-461). -/
def counts (r : Result) : Bool := decide (r.code = 0) || r.known

/-- `EthMsgsFromTendermintBlock` (blocks.go lines 305-342). -/
def listing : List (Tx × Result) → List Msg
  | [] => []
  | (t, r) :: rest =>
    if counts r = false then listing rest
    else if t.decodes = false then listing rest
    else t.eths ++ listing rest

/-! ## The database -/

/-- `TxResult` (/repo/helios-chain/types/indexer.pb.go). -/
structure Rec where
  height : Nat
  txIndex : Nat
  msgIndex : Nat
  ethIndex : Nat
  used : Nat
  failed : Bool
  cumulative : Nat
  deriving DecidableEq, Repr

/-- A value of the database: a record or a hash. -/
inductive Val
  | entry (r : Rec)
  | hash (h : Nat)
  deriving DecidableEq, Repr

abbrev DB := List (List UInt8 × Val)

/-- `TxHashKey` (kv_indexer.go lines 161-163). -/
def hashKey (h : Nat) : List UInt8 := 1 :: be 32 h

/-- `TxIndexKey` (kv_indexer.go lines 166-170). -/
def indexKey (height i : Nat) : List UInt8 := 2 :: (be 8 height ++ be 8 i)

/-- `saveTxResult` (kv_indexer.go lines 212-221). -/
def save (db : DB) (h : Nat) (r : Rec) : DB :=
  KV.set (KV.set db (hashKey h) (.entry r)) (indexKey r.height r.ethIndex) (.hash h)

/-- `GetByTxHash` (kv_indexer.go lines 133-146). -/
def byHash (db : DB) (h : Nat) : Option Rec :=
  match KV.get db (hashKey h) with
  | some (.entry r) => some r
  | _ => none

/-- `GetByBlockAndIndex` (kv_indexer.go lines 149-158). -/
def byIndex (db : DB) (height i : Nat) : Option Rec :=
  match KV.get db (indexKey height i) with
  | some (.hash h) => byHash db h
  | _ => none

/-- The greatest key of the range `[2, 3)` (kv_indexer.go lines 173-182): what the reverse iterator
is at first. -/
def lastKey : DB → Option (List UInt8)
  | [] => none
  | (k, _) :: rest =>
    if [2] ≤ k ∧ k < [3] then
      match lastKey rest with
      | none => some k
      | some k' => if k' < k then some k else some k'
    else lastKey rest

/-- `parseBlockNumberFromKey` (kv_indexer.go lines 223-229). -/
def blockOf (key : List UInt8) : Option Nat :=
  if key.length ≠ 17 then none else some (unbe ((key.drop 1).take 8))

/-- `LoadLastBlock` (kv_indexer.go lines 173-183): `none` for -1 (and for a key of a wrong length,
of which there are none). -/
def lastBlock (db : DB) : Option Nat :=
  match lastKey db with
  | none => none
  | some k => blockOf k

/-! ## Filling the index -/

/-- The record of a message (kv_indexer.go lines 83-108), without its two running sums; `none` when
the message has no entry among the events. -/
def outcome (r : Result) (parsed : List Parsed) (j : Nat) (m : Msg) : Option (Nat × Bool) :=
  if r.code ≠ 0 then some (m.gas, true)
  else match parsed[j]? with
    | none => none
    | some p => some (p.used, p.failed)

/-- The loop over the messages of a transaction (kv_indexer.go lines 79-114). State: the database and
the running index; `none` for the cast that fails (line 80). -/
def indexMsgs (height txIdx : Nat) (r : Result) (parsed : List Parsed) :
    (db : DB) → (eth cum j : Nat) → List (Option Msg) → Option (DB × Nat)
  | db, eth, _, _, [] => some (db, eth)
  | _, _, _, _, none :: _ => none
  | db, eth, cum, j, some m :: rest =>
    match outcome r parsed j m with
    | none => indexMsgs height txIdx r parsed db eth cum (j + 1) rest
    | some (used, failed) =>
      indexMsgs height txIdx r parsed
        (save db m.hash ⟨height, txIdx, j, eth, used, failed, cum + used⟩)
        (eth + 1) (cum + used) (j + 1) rest

/-- The loop over the transactions (kv_indexer.go lines 56-115). -/
def indexTxs (height : Nat) : (db : DB) → (eth i : Nat) → List (Tx × Result) → Option DB
  | db, _, _, [] => some db
  | db, eth, i, (t, r) :: rest =>
    if counts r = false then indexTxs height db eth (i + 1) rest
    else if t.decodes = false then indexTxs height db eth (i + 1) rest
    else if t.ext = false then indexTxs height db eth (i + 1) rest
    else match parse r t with
      | none => indexTxs height db eth (i + 1) rest
      | some parsed =>
        match indexMsgs height i r parsed db eth 0 0 t.msgs with
        | none => none
        | some (db', eth') => indexTxs height db' eth' (i + 1) rest

/-- `IndexBlock` (kv_indexer.go lines 48-120). The batch is written at once. `none` when it panics.
(An index out of range in `ParseTxResult`, a panic too, is taken here for an error; `parse_exec` shows
that it does not happen.) -/
def indexBlock (db : DB) (height : Nat) (b : List (Tx × Result)) : Option DB := indexTxs height db 0 0 b

/-! ## The service -/

/-- The service (indexer_service.go lines 40-109): what is on disk, the last block it has dealt with
and the newest block it knows of. -/
structure Service where
  db : DB
  last : Nat
  latest : Nat
  deriving DecidableEq, Repr

/-- What happens to it: a new block is announced; the next block is fetched and indexed, where the
write may fail (lines 103-106); it stops and starts again, with the node at a block (lines 41-46 and
76-82). A block that cannot be fetched is tried again (lines 93-102), which changes nothing. A panic of
`IndexBlock` stops the node. -/
inductive Op
  | header (h : Nat)
  | next (written : Bool)
  | restart (latest : Nat)
  deriving DecidableEq, Repr

/-- The start (indexer_service.go lines 41-46 and 76-82). -/
def start (db : DB) (latest : Nat) : Service :=
  ⟨db, match lastBlock db with | none => latest | some h => h, latest⟩

/-- One step; `chain` gives the blocks with their results. -/
def serve (chain : Nat → List (Tx × Result)) (s : Service) : Op → Service
  | .header h => { s with latest := if s.latest < h then h else s.latest }
  | .next written =>
    if s.latest ≤ s.last then s
    else if written then
      match indexBlock s.db (s.last + 1) (chain (s.last + 1)) with
      | none => s
      | some db => { s with db := db, last := s.last + 1 }
    else { s with last := s.last + 1 }
  | .restart latest => start s.db latest

/-- A history of the service. -/
def serveAll (chain : Nat → List (Tx × Result)) (s : Service) (ops : List Op) : Service :=
  ops.foldl (serve chain) s

/-! ## Look-ups without the index -/

/-- Has the transaction an `ethereum_tx` event with this index? (The query of tx_info.go lines
575-578.) -/
def hasIndex (r : Result) (i : Nat) : Bool :=
  r.events.any fun e => match e with | .eth attrs => decide (Attr.index i ∈ attrs) | _ => false

/-- The first transaction of the block that the query finds (tx_info.go lines 590-597), with its
place. -/
def search (q : Result → Bool) : Nat → List (Tx × Result) → Option (Nat × Tx × Result)
  | _, [] => none
  | i, (t, r) :: rest => if q r then some (i, t, r) else search q (i + 1) rest

/-- `GetTxByTxIndex` of parsed events (events.go lines 210-219). -/
def msgOfIndex (ps : List Parsed) (i : Nat) : Option Nat :=
  match ps with
  | [] => none
  | p :: _ => match p.ethIndex with
    | none => if i + 1 < ps.length then some (i + 1) else none
    | some e => if e ≤ i ∧ i - e < ps.length then some (i - e) else none

/-- `GetTxByTxIndex` by the events (tx_info.go lines 575-612): the transaction and the message. -/
def eventByIndex (b : List (Tx × Result)) (i : Nat) : Option (Nat × Nat) :=
  match search (hasIndex · i) 0 b with
  | none => none
  | some (k, t, r) =>
    if counts r = false then none
    else match parse r t with
      | none => none
      | some ps => (msgOfIndex ps i).map fun j => (k, j)

/-- The message at a place of a block. -/
def msgAt (b : List (Tx × Result)) (k j : Nat) : Option Msg :=
  match b[k]? with
  | none => none
  | some (t, _) => match t.msgs[j]? with
    | some (some m) => some m
    | _ => none

/-- `GetTransactionByBlockAndIndex` with the index (tx_info.go lines 621-647). -/
def txByIndex (db : DB) (height : Nat) (b : List (Tx × Result)) (i : Nat) : Option Msg :=
  match byIndex db height i with
  | some r => msgAt b r.txIndex r.msgIndex
  | none => (listing b)[i]?

/-- `GetTransactionByBlockAndIndex` without the index (tx_info.go lines 621-647). -/
def txByEvents (b : List (Tx × Result)) (i : Nat) : Option Msg :=
  match eventByIndex b i with
  | some (k, j) => msgAt b k j
  | none => (listing b)[i]?

end EthIndex
