import Verif.Rpc.Index
/-!
# Receipts

Models `eth_getTransactionReceipt` (/repo/helios-chain/rpc/backend/tx_info.go, lines 185-336),
`eth_getBlockReceipts` and its like (tx_info.go, lines 338-459), `eth_getTransactionLogs` (tx_info.go,
lines 483-506), the logs of one message (/repo/helios-chain/rpc/backend/utils.go, lines 230-245) and the
gas of a block (/repo/helios-chain/rpc/backend/blocks.go, lines 503-512), on the blocks and the index of
`Index.lean`.

The receipts of scheduled calls, which are added from elsewhere, the addresses, the type, the bloom filter
and the effective price are left out. `FixRevertGasRefundHeight` has its default, zero
(/repo/helios-chain/server/config/config.go), so that the gas shown is that of the record.
-/

namespace EthIndex

/-- A receipt: hash, success, cumulative gas, logs, gas used, height, number in the block. -/
structure Receipt where
  hash : Nat
  success : Bool
  cumulative : Nat
  logs : List Nat
  used : Nat
  height : Nat
  index : Nat
  deriving DecidableEq, Repr

/-- `TxLogsFromEvents` (utils.go lines 230-245); `none` for its error. -/
def txLogs : List Event → Nat → Option (List Nat)
  | [], _ => none
  | .log logs :: es, j => if j > 0 then txLogs es (j - 1) else some logs
  | _ :: es, j => txLogs es j

/-- `GetTransactionReceipt` (tx_info.go lines 196-336) for a transaction in the index. The error of
`TxLogsFromEvents` is logged and the list is empty then (lines 271-274 and 316-318). -/
def receipt (db : DB) (blocks : Nat → List (Tx × Result)) (hash : Nat) : Option Receipt :=
  match byHash db hash with
  | none => none
  | some r =>
    match (blocks r.height)[r.txIndex]? with
    | none => none
    | some (t, res) =>
      match t.msgs[r.msgIndex]? with
      | some (some _) =>
        some ⟨hash, !r.failed, (((blocks r.height).take r.txIndex).map (·.2.gasUsed)).sum + r.cumulative,
          (txLogs res.events r.msgIndex).getD [], r.used, r.height, r.ethIndex⟩
      | _ => none

/-- `GetTransactionLogs` (tx_info.go lines 483-506); `none` when the transaction is not found. -/
def logsOf (db : DB) (blocks : Nat → List (Tx × Result)) (hash : Nat) : Option (List Nat) :=
  match byHash db hash with
  | none => none
  | some r =>
    if r.failed then some []
    else match (blocks r.height)[r.txIndex]? with
      | none => none
      | some (_, res) => txLogs res.events r.msgIndex

/-- What the receipts of a block keep of a message (tx_info.go lines 362-367): its transaction, its place
there, the gas of the transaction, and is the transaction one that does not count. -/
structure Info where
  tx : Nat
  msg : Nat
  gas : Nat
  failed : Bool
  deriving DecidableEq, Repr

/-- The messages of a transaction (tx_info.go lines 380-389). -/
def infoMsgs (i : Nat) (r : Result) : (j : Nat) → List (Option Msg) → List (Nat × Info)
  | _, [] => []
  | j, none :: ms => infoMsgs i r (j + 1) ms
  | j, some m :: ms => (m.hash, ⟨i, j, r.gasUsed, !counts r⟩) :: infoMsgs i r (j + 1) ms

/-- What is put into the map, in order (tx_info.go lines 369-390). -/
def infos : (i : Nat) → List (Tx × Result) → List (Nat × Info)
  | _, [] => []
  | i, (t, r) :: rest => (if t.decodes then infoMsgs i r 0 t.msgs else []) ++ infos (i + 1) rest

/-- The map (tx_info.go lines 362-390). -/
def infoMap (es : List (Nat × Info)) : List (Nat × Info) := es.foldl (fun m e => KV.set m e.1 e.2) []

/-- The loop over the block's Ethereum transactions (tx_info.go lines 396-459). -/
def receiptLoop (height : Nat) (b : List (Tx × Result)) (map : List (Nat × Info)) :
    (cum n : Nat) → List Msg → List Receipt
  | _, _, [] => []
  | cum, n, m :: ms =>
    match KV.get map m.hash with
    | none => receiptLoop height b map cum (n + 1) ms
    | some x =>
      ⟨m.hash, !x.failed, cum + x.gas,
        match b[x.tx]? with
        | none => []
        | some (_, res) => (txLogs res.events x.msg).getD [],
        x.gas, height, n⟩ :: receiptLoop height b map (cum + x.gas) (n + 1) ms

/-- `GetAllTransactionReceiptsByBlockNumber` (tx_info.go lines 338-459). -/
def blockReceipts (height : Nat) (b : List (Tx × Result)) : List Receipt :=
  receiptLoop height b (infoMap (infos 0 b)) 0 0 (listing b)

/-- The gas used by a block (blocks.go lines 503-512), for blocks in which no transaction was refused for
want of block gas. -/
def blockGas (b : List (Tx × Result)) : Nat := (b.map (·.2.gasUsed)).sum

end EthIndex
