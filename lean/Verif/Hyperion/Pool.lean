import Verif.Lib.KV
import Verif.Lib.Sort
/-!
# The outgoing side of the bridge

Models the withdrawal pool, the outgoing batches and the coins they move:

* `helios-chain/x/hyperion/keeper/pool.go` lines 27-106 (`AddToOutgoingPool`), 127-244
  (`RemoveFromOutgoingPoolAndRefund`), 246-311 (the unbatched index), 382-408 (`GetPoolTransactions`), 446-470, 525-587,
  669-687 (`AutoIncrementID`);
* `helios-chain/x/hyperion/keeper/batch.go` lines 27-110 (building a batch), 128-214 (`OutgoingTxBatchExecuted`),
  271-324 (picking withdrawals), 348-376 (`CancelOutgoingTXBatch`), 442-462;
* `helios-chain/x/hyperion/keeper/attestation_handler.go` lines 44-150 (deposits and executed batches);
* `helios-chain/x/hyperion/abci.go` lines 273-328 (timeouts), `keeper.go` lines 1548-1580 (`CleanAllBatchesAndTxs`);
* `helios-chain/x/hyperion/keeper/external_data.go` lines 32-60, 75-215 as far as fees are moved.

Conventions and simplifications.

* Addresses, chain ids (`HyperionId`) and amounts are natural numbers; counters do not wrap at 2^64.
* Store keys are tuples; that the byte keys behave like these tuples is proved separately in `Keys.lean`.
* `Token.Contract` and `Fee.Contract` of a withdrawal are written together and never differ, so they are one field.
* A message that returns an error is rolled back by the application, so it leaves the state as it was; end-of-block code
  is not rolled back.  A panic stops the chain; it is an outcome of its own.
* The index of batches by block height, events, metrics and the bookkeeping of orchestrators are left out.
* Linking a contract address that is already linked on the same chain is not modelled (the address index lives in the
  forked bank module, which is not part of the repository).
-/
namespace Hyperion
open StableSort

/-- Coin denominations: an ordinary denomination, or the one made for a contract of a counterparty chain
(`types.NewHyperionDenom`). -/
inductive Denom where
  | named (n : Nat)
  | bridged (hid addr : Nat)
  deriving DecidableEq, Repr

/-- `"ahelios"`, the denomination of all fees. -/
def ahelios : Denom := .named 0

/-- Bank accounts: users, the module account of the bridge, the community pool. -/
inductive Acct where
  | user (a : Nat)
  | module
  | community
  deriving DecidableEq, Repr

/-- Bank balances and supplies. -/
structure Bank where
  bal : Acct → Denom → Nat
  supply : Denom → Nat

/-- Credit an account. -/
def Bank.credit (b : Bank) (a : Acct) (d : Denom) (n : Nat) : Bank :=
  { b with bal := fun x e => if x = a ∧ e = d then b.bal x e + n else b.bal x e }

/-- Debit an account (of sufficient balance). -/
def Bank.debit (b : Bank) (a : Acct) (d : Denom) (n : Nat) : Bank :=
  { b with bal := fun x e => if x = a ∧ e = d then b.bal x e - n else b.bal x e }

/-- `SendCoins`: fails when the balance is too small. -/
def Bank.send (b : Bank) (src dst : Acct) (d : Denom) (n : Nat) : Option Bank :=
  if b.bal src d < n then none else some ((b.debit src d n).credit dst d n)

/-- `MintCoins`: the new coins arrive in the module account. -/
def Bank.mint (b : Bank) (d : Denom) (n : Nat) : Bank :=
  let b' := b.credit .module d n
  { b' with supply := fun e => if e = d then b.supply e + n else b.supply e }

/-- `BurnCoins`: coins of the module account are destroyed.  (A supply smaller than the amount makes the bank panic, which
inside a message is an error.) -/
def Bank.burn (b : Bank) (d : Denom) (n : Nat) : Option Bank :=
  if b.bal .module d < n ∨ b.supply d < n then none
  else
    let b' := b.debit .module d n
    some { b' with supply := fun e => if e = d then b.supply e - n else b.supply e }

/-- `types.OutgoingTransferTx`: a withdrawal.  `fee` is in ahelios, `amount` in the denomination linked to `token`. -/
structure Tx where
  id : Nat
  sender : Nat
  hid : Nat
  dest : Nat
  token : Nat
  amount : Nat
  fee : Nat
  timeout : Nat
  deriving DecidableEq, Repr

/-- `types.OutgoingTxBatch`. -/
structure Batch where
  nonce : Nat
  timeout : Nat
  txs : List Tx
  token : Nat
  hid : Nat
  deriving DecidableEq, Repr

/-- One entry of `metadata.ChainsMetadatas` of a denomination: the denomination is represented on chain `hid` by contract
`addr`; `locked` is `TotalSupply` (keeper/tokens.go 387-420), the amount of a coin of this chain that is out on chain
`hid`. -/
structure Link where
  hid : Nat
  addr : Nat
  denom : Denom
  originated : Bool
  locked : Nat
  deriving DecidableEq, Repr

/-- `types.OutgoingExternalDataTx`, reduced to what moves coins. -/
structure DataTx where
  nonce : Nat
  hid : Nat
  contract : Nat
  sender : Nat
  fee : Nat
  deriving DecidableEq, Repr

/-- How a withdrawal ended: the `Status` of the record written by `StoreFinalizedTx` (`"FAILED"` after a refund,
`"BRIDGED"` after execution). -/
inductive Ended where
  | refunded
  | executed
  deriving DecidableEq, Repr

/-- The state of the module and of the bank. `lost` is not on chain: it collects the withdrawals whose refund failed
after the withdrawal had already been removed (the log line of abci.go 318), with a flag telling whether the refunded
coins had been minted. -/
structure State where
  bank : Bank
  links : List Link
  pool : List ((Nat × Nat) × Tx)
  index : List ((Nat × Nat × Nat) × List Nat)
  batches : List ((Nat × Nat × Nat) × Batch)
  lastTx : Nat
  lastBatch : Nat → Nat
  data : List ((Nat × Nat × Nat) × DataTx)
  finalized : List (Tx × Ended)
  lost : List (Tx × Bool)

/-- The state before the first bridge operation: arbitrary bank and token links, nothing pending. -/
def State.init (bank : Bank) (links : List Link) : State :=
  { bank := bank, links := links, pool := [], index := [], batches := [], lastTx := 0, lastBatch := fun _ => 0,
    data := [], finalized := [], lost := [] }

/-- Parameters: the batch size limit (`OutgoingTxBatchSize`, 100 in batch.go line 18) and the accounts the bank refuses
to pay (`BlockedAddr`). -/
structure Cfg where
  limit : Nat
  blocked : Nat → Bool

/-! ## Token links -/

/-- `IsCosmosOriginated` (tokens.go 37-44, 73-80): no chain claims to be the origin of the denomination. -/
def isCosmos (links : List Link) (d : Denom) : Bool := links.all (fun l => !(decide (l.denom = d) && l.originated))

/-- `GetTokenFromAddress` (tokens.go 25-63). -/
def linkByAddr (links : List Link) (hid addr : Nat) : Option Link :=
  links.find? (fun l => decide (l.hid = hid ∧ l.addr = addr))

/-- `GetTokenFromDenom` (tokens.go 65-100). -/
def linkByDenom (links : List Link) (hid : Nat) (d : Denom) : Option Link :=
  links.find? (fun l => decide (l.hid = hid ∧ l.denom = d))

/-- `GetHyperionContractBalance` (tokens.go 387-402). -/
def lockedOf (links : List Link) (hid addr : Nat) : Nat :=
  match linkByAddr links hid addr with
  | none => 0
  | some l => l.locked

/-- `SetHyperionContractBalance` (tokens.go 404-420). -/
def setLocked (links : List Link) (hid addr n : Nat) : List Link :=
  links.map (fun l => if l.hid = hid ∧ l.addr = addr then { l with locked := n } else l)

/-! ## The index of withdrawals that are not in a batch -/

/-- `appendToUnbatchedTXIndex` (pool.go 246-259). -/
def appendIdx (ix : List ((Nat × Nat × Nat) × List Nat)) (k : Nat × Nat × Nat) (id : Nat) :
    List ((Nat × Nat × Nat) × List Nat) :=
  KV.set ix k ((KV.get ix k).getD [] ++ [id])

/-- `prependToUnbatchedTXIndex` (pool.go 262-276). -/
def prependIdx (ix : List ((Nat × Nat × Nat) × List Nat)) (k : Nat × Nat × Nat) (id : Nat) :
    List ((Nat × Nat × Nat) × List Nat) :=
  KV.set ix k (id :: (KV.get ix k).getD [])

/-- `removeFromUnbatchedTXIndex` (pool.go 282-311). -/
def removeIdx (ix : List ((Nat × Nat × Nat) × List Nat)) (k : Nat × Nat × Nat) (id : Nat) :
    Option (List ((Nat × Nat × Nat) × List Nat)) :=
  match KV.get ix k with
  | none => none
  | some ids =>
    if ids.contains id then
      if (ids.erase id).isEmpty then some (KV.del ix k) else some (KV.set ix k (ids.erase id))
    else none

/-- `UnbatchedTXIndexExists` (pool.go 313-328). -/
def idxHas (ix : List ((Nat × Nat × Nat) × List Nat)) (k : Nat × Nat × Nat) (id : Nat) : Bool :=
  match KV.get ix k with
  | none => false
  | some ids => ids.contains id

/-- Key order of the reverse iterators over the index and the batches. -/
def keyGe (a b : Nat × Nat × Nat) : Bool :=
  decide (b.1 < a.1) || (decide (b.1 = a.1) && (decide (b.2.1 < a.2.1) || (decide (b.2.1 = a.2.1) && decide (b.2.2 ≤ a.2.2))))

/-- Ids of a chain in the order of the reverse iterator of pool.go 387. -/
def idsOfChain (ix : List ((Nat × Nat × Nat) × List Nat)) (hid : Nat) : List Nat :=
  (sortBy (fun a b => keyGe a.1 b.1) (ix.filter (fun e => decide (e.1.1 = hid)))).flatMap (·.2)

/-- Ids of a chain and token, highest fee first: the reverse iterator of pool.go 450-452. -/
def idsOfToken (ix : List ((Nat × Nat × Nat) × List Nat)) (hid token : Nat) : List Nat :=
  (sortBy (fun a b => keyGe a.1 b.1) (ix.filter (fun e => decide (e.1.1 = hid ∧ e.1.2.1 = token)))).flatMap (·.2)

/-- Looks up every id; `none` when one is missing. -/
def lookupAll (pool : List ((Nat × Nat) × Tx)) (hid : Nat) : List Nat → Option (List Tx)
  | [] => some []
  | id :: ids =>
    match KV.get pool (hid, id) with
    | none => none
    | some tx => (lookupAll pool hid ids).map (tx :: ·)

/-- `GetPoolTransactions` (pool.go 382-408).  An id of the index without an entry makes the code read a field of a nil
pointer: `none` is that panic. -/
def poolTxs (s : State) (hid : Nat) : Option (List Tx) :=
  (lookupAll s.pool hid (idsOfChain s.index hid)).map (fun l => l.filter (fun tx => decide (tx.hid = hid)))

/-- `GetOutgoingTxBatches` (batch.go 378-394, 414-424): the batches of a chain, highest nonce first. -/
def batchesOf (s : State) (hid : Nat) : List Batch :=
  ((sortBy (fun a b => keyGe a.1 b.1) (s.batches.filter (fun e => decide (e.1.1 = hid)))).map (·.2))

/-! ## Submitting a withdrawal -/

/-- `AddToOutgoingPool` (pool.go 27-106). `none`: an error, rolled back.  The bank refuses a zero amount (the coin list is
not valid) and accepts a zero fee. -/
def addToPool (s : State) (sender hid dest : Nat) (d : Denom) (amount : Nat) (feeDenom : Denom) (fee timeout : Nat) :
    Option (State × Tx) :=
  if feeDenom ≠ ahelios then none
  else
    match linkByDenom s.links hid d with
    | none => none
    | some l =>
      if amount = 0 then none
      else
        let links := if isCosmos s.links d then setLocked s.links hid l.addr (lockedOf s.links hid l.addr + amount)
          else s.links
        match s.bank.send (.user sender) .module d amount with
        | none => none
        | some b1 =>
          match b1.burn d amount with
          | none => none
          | some b2 =>
            match b2.send (.user sender) .module ahelios fee with
            | none => none
            | some b3 =>
              let id := s.lastTx + 1
              let tx : Tx := { id := id, sender := sender, hid := hid, dest := dest, token := l.addr, amount := amount,
                               fee := fee, timeout := timeout }
              some ({ s with
                      bank := b3
                      links := links
                      lastTx := id
                      pool := KV.set s.pool (hid, id) tx
                      index := appendIdx s.index (hid, l.addr, fee) id }, tx)

/-! ## Refunds -/

/-- The end of `RemoveFromOutgoingPoolAndRefund` (pool.go 176-243): the entry has been removed from the pool and from
the index, the coins are given back.  When the sender cannot be paid the coins have been minted all the same.  A failing
transfer of the fee is only logged. -/
def payRefund (cfg : Cfg) (s : State) (tx : Tx) : State × Bool :=
  match linkByAddr s.links tx.hid tx.token with
  | none => ({ s with lost := (tx, false) :: s.lost }, false)
  | some l =>
    let cosmos := isCosmos s.links l.denom
    if cosmos && decide (lockedOf s.links tx.hid tx.token < tx.amount) then
      ({ s with lost := (tx, false) :: s.lost }, false)
    else
      let links := if cosmos then setLocked s.links tx.hid tx.token (lockedOf s.links tx.hid tx.token - tx.amount)
        else s.links
      let b1 := s.bank.mint l.denom tx.amount
      if cfg.blocked tx.sender then
        ({ s with bank := b1, links := links, lost := (tx, true) :: s.lost }, false)
      else
        match b1.send .module (.user tx.sender) l.denom tx.amount with
        | none => ({ s with bank := b1, links := links, lost := (tx, true) :: s.lost }, false)
        | some b2 =>
          let b3 := (b2.send .module (.user tx.sender) ahelios tx.fee).getD b2
          ({ s with bank := b3, links := links, finalized := (tx, .refunded) :: s.finalized }, true)

/-- What a keeper function that lists the pool returns: the new state and whether it succeeded, or a panic. -/
abbrev M := Option (State × Bool)

/-- `RemoveFromOutgoingPoolAndRefund` (pool.go 127-244). `none`: panic while listing the pool.  The state is the one left
by the keeper function, also when it returns an error. -/
def refund (cfg : Cfg) (s : State) (hid id sender : Nat) : M :=
  match KV.get s.pool (hid, id) with
  | none => some (s, false)
  | some tx =>
    if tx.sender ≠ sender then some (s, false)
    else
      match poolTxs s tx.hid with
      | none => none
      | some txs =>
        if txs.any (fun p => decide (p.id = id)) then
          match removeIdx s.index (tx.hid, tx.token, tx.fee) id with
          | none => some (s, false)
          | some ix => some (payRefund cfg { s with index := ix, pool := KV.del s.pool (tx.hid, id) } tx)
        else some (s, false)

/-! ## Batches -/

/-- `pickUnbatchedTX` (batch.go 271-294): walks the candidate ids, highest fee first.  An id without an entry is skipped;
an error of `removeFromUnbatchedTXIndex` stops the walk but is not returned. -/
def pick (pool : List ((Nat × Nat) × Tx)) (hid token max : Nat) :
    List Nat → List ((Nat × Nat × Nat) × List Nat) → List Tx → List ((Nat × Nat × Nat) × List Nat) × List Tx
  | [], ix, sel => (ix, sel)
  | id :: ids, ix, sel =>
    match KV.get pool (hid, id) with
    | none => pick pool hid token max ids ix sel
    | some tx =>
      match removeIdx ix (hid, token, tx.fee) id with
      | none => (ix, sel ++ [tx])
      | some ix' =>
        if (sel ++ [tx]).length = max then (ix', sel ++ [tx]) else pick pool hid token max ids ix' (sel ++ [tx])

/-- `pickUnbatchedTXWithIds` (batch.go 296-324). `none`: an error. -/
def pickIds (pool : List ((Nat × Nat) × Tx)) (hid token max : Nat) :
    List Nat → List ((Nat × Nat × Nat) × List Nat) → List Tx →
      Option (List ((Nat × Nat × Nat) × List Nat) × List Tx)
  | [], ix, sel => some (ix, sel)
  | id :: ids, ix, sel =>
    match KV.get pool (hid, id) with
    | none => none
    | some tx =>
      if idxHas ix (hid, token, tx.fee) id then
        match removeIdx ix (hid, token, tx.fee) id with
        | none => some (ix, sel ++ [tx])
        | some ix' =>
          if (sel ++ [tx]).length = max then some (ix', sel ++ [tx]) else pickIds pool hid token max ids ix' (sel ++ [tx])
      else none

/-- `GetLastOutgoingBatchByTokenType` (batch.go 442-462). -/
def lastBatchOf (s : State) (hid token : Nat) : Option Batch :=
  ((batchesOf s hid).foldl (fun (acc : Option Batch × Nat) b =>
    if b.token = token ∧ acc.2 < b.nonce then (some b, b.nonce) else acc) (none, 0)).1

/-- Sum of the fees of some withdrawals. -/
def feesOf (txs : List Tx) : Nat := (txs.map (·.fee)).sum

/-- `GetBatchFeesByTokenType` with the minimum fee zero of `RequestBatch` (pool.go 476-483, 525-587): the fees counted for
the next batch, in the order of the forward iterator, lowest fee first. -/
def countedFees (cfg : Cfg) (ix : List ((Nat × Nat × Nat) × List Nat)) (hid token : Nat) : Option Nat :=
  let fees := (sortBy (fun a b => keyGe b.1 a.1) (ix.filter (fun e => decide (e.1.1 = hid ∧ e.1.2.1 = token)))).flatMap
    (fun e => e.2.map (fun _ => e.1.2.2))
  if fees.isEmpty then none else some (fees.take cfg.limit).sum

/-- The end of both batch builders (batch.go 59-76, 92-109): a new nonce, the batch is stored. -/
def storeNewBatch (s : State) (hid token timeout : Nat) (ix : List ((Nat × Nat × Nat) × List Nat)) (sel : List Tx) :
    State × Batch :=
  let n := s.lastBatch hid + 1
  let b : Batch := { nonce := n, timeout := timeout, txs := sel, token := token, hid := hid }
  ({ s with
     index := ix
     lastBatch := fun h => if h = hid then n else s.lastBatch h
     batches := KV.set s.batches (hid, n, token) b }, b)

/-- The check of batch.go 36-54 against the last batch of the token that is still outstanding. -/
def profitable (cfg : Cfg) (s : State) (hid token : Nat) : Bool :=
  match lastBatchOf s hid token with
  | none => true
  | some b =>
    match countedFees cfg s.index hid token with
    | none => false
    | some f => decide (feesOf b.txs ≤ f)

/-- `BuildOutgoingTXBatch` (batch.go 27-77). -/
def buildBatch (cfg : Cfg) (s : State) (hid token timeout : Nat) : Option (State × Batch) :=
  if cfg.limit = 0 ∨ profitable cfg s hid token = false then none
  else
    let (ix, sel) := pick s.pool hid token cfg.limit (idsOfToken s.index hid token) s.index []
    if sel.isEmpty then none else some (storeNewBatch s hid token timeout ix sel)

/-- `BuildOutgoingTXBatchWithIds` (batch.go 79-110). -/
def buildBatchIds (cfg : Cfg) (s : State) (hid token timeout : Nat) (ids : List Nat) : Option (State × Batch) :=
  if cfg.limit = 0 then none
  else
    match pickIds s.pool hid token cfg.limit ids s.index [] with
    | none => none
    | some (ix, sel) => if sel.isEmpty then none else some (storeNewBatch s hid token timeout ix sel)

/-- `CancelOutgoingTXBatch` (batch.go 348-376). -/
def cancelBatch (s : State) (hid token nonce : Nat) : Option State :=
  match KV.get s.batches (hid, nonce, token) with
  | none => none
  | some b =>
    some { s with
           index := b.txs.foldl (fun ix tx => prependIdx ix (hid, token, tx.fee) tx.id) s.index
           batches := KV.del s.batches (b.hid, b.nonce, b.token) }

/-- The loop of batch.go 146-156: earlier batches of the token are cancelled. `none`: panic. -/
def cancelEarlier (hid token nonce : Nat) : List Batch → State → Option State
  | [], s => some s
  | b :: bs, s =>
    if b.hid = hid ∧ b.nonce < nonce ∧ b.token = token then
      match cancelBatch s b.hid token b.nonce with
      | none => none
      | some s' => cancelEarlier hid token nonce bs s'
    else cancelEarlier hid token nonce bs s

/-- `OutgoingTxBatchExecuted` (batch.go 128-204). `none`: panic. -/
def batchExecuted (cfg : Cfg) (s : State) (hid token nonce orch : Nat) : Option State :=
  match KV.get s.batches (hid, nonce, token) with
  | none => some s
  | some b =>
    let s1 := { s with pool := b.txs.foldl (fun p tx => KV.del p (tx.hid, tx.id)) s.pool }
    match cancelEarlier hid token b.nonce (batchesOf s1 hid) s1 with
    | none => none
    | some s2 =>
      let s3 := { s2 with batches := KV.del s2.batches (b.hid, b.nonce, b.token) }
      if cfg.blocked orch then none
      else
        match s3.bank.send .module (.user orch) ahelios (feesOf b.txs) with
        | none => none
        | some bk => some { s3 with bank := bk, finalized := b.txs.map (fun tx => (tx, .executed)) ++ s3.finalized }

/-! ## Deposits and links -/

/-- What is visible of an operation besides the state: ids and nonces handed out, and changes of supply that are not
withdrawals. -/
inductive Ev where
  | sent (tx : Tx)
  | batch (b : Batch)
  | data (hid nonce : Nat)
  | deposited (d : Denom) (n : Nat)
  | created (d : Denom)
  deriving DecidableEq, Repr

/-- `CreateOrLinkTokenToChain` for a denomination without an ERC20 pair (tokens.go 218-294): one unit is minted to the
module, then the denomination is linked unless it already is on this chain (`SetTokenToChainMetadata`, 120-155).  Default
holders are left out. -/
def createLink (s : State) (hid addr : Nat) (d : Denom) (originated : Bool) : State :=
  { s with
    bank := s.bank.mint d 1
    links := if (linkByDenom s.links hid d).isSome then s.links
      else s.links ++ [{ hid := hid, addr := addr, denom := d, originated := originated, locked := 0 }] }

/-- An observed deposit (attestation_handler.go 44-143). `none`: an error, rolled back.  `receiver = none`: the address is
not valid or is blacklisted, the coins go to the community pool, as they do when the bank refuses to pay the receiver. -/
def deposit (cfg : Cfg) (s : State) (hid addr amount : Nat) (receiver : Option Nat) : Option (State × List Ev) :=
  let (s1, d, evs) : State × Denom × List Ev := match linkByAddr s.links hid addr with
    | some l => (s, l.denom, [])
    | none => (createLink s hid addr (.bridged hid addr) true, .bridged hid addr, [.created (.bridged hid addr)])
  let cosmos : Bool := match linkByAddr s.links hid addr with
    | some l => isCosmos s.links l.denom
    | none => false
  let checked : Option (List Link) :=
    if cosmos then
      if lockedOf s1.links hid addr < amount then none
      else some (setLocked s1.links hid addr (lockedOf s1.links hid addr - amount))
    else if s1.bank.supply d + amount < 2 ^ 256 then some s1.links else none
  match checked with
  | none => none
  | some links =>
    let b1 := s1.bank.mint d amount
    let dst : Acct := match receiver with
      | none => .community
      | some r => if cfg.blocked r then .community else .user r
    match b1.send .module dst d amount with
    | none => none
    | some b2 => some ({ s1 with bank := b2, links := links }, evs ++ [.deposited d amount])

/-! ## External data requests, as far as fees are moved -/

/-- `RequestData` and `BuildOutgoingExternalDataTX` (precompiles/hyperion/methods.go 336-390, external_data.go 32-60): the
fee goes to the module account; the nonce comes from the counter of the batches. -/
def dataRequest (s : State) (origin hid contract fee : Nat) : Option State :=
  match s.bank.send (.user origin) .module ahelios fee with
  | none => none
  | some b =>
    let n := s.lastBatch hid + 1
    some { s with
           bank := b
           lastBatch := fun h => if h = hid then n else s.lastBatch h
           data := KV.set s.data (hid, n, contract) { nonce := n, hid := hid, contract := contract, sender := origin, fee := fee } }

/-- A payment out of the module account whose error is ignored. -/
def tryPay (cfg : Cfg) (b : Bank) (to n : Nat) : Bank :=
  if cfg.blocked to then b else (b.send .module (.user to) ahelios n).getD b

/-- `OutgoingExternalDataTxExecuted` and `rewardVotersOfExternalDataTx` (external_data.go 75-130, 160-186): earlier
requests to the same contract are cancelled without a refund, every vote is paid an equal share of the fee. -/
def dataExecute (cfg : Cfg) (s : State) (hid nonce contract : Nat) (votes : List Nat) : State :=
  match KV.get s.data (hid, nonce, contract) with
  | none => s
  | some t =>
    let data := KV.del (s.data.filter (fun e => !(decide (e.2.hid = hid ∧ e.2.nonce < nonce ∧ e.2.contract = contract))))
      (hid, nonce, contract)
    { s with data := data, bank := votes.foldl (fun b v => tryPay cfg b v (t.fee / votes.length)) s.bank }

/-- A timed out request (abci.go 652-657, external_data.go 204-213): refunded and deleted. -/
def dataTimeout (cfg : Cfg) (s : State) (hid nonce contract : Nat) : State :=
  match KV.get s.data (hid, nonce, contract) with
  | none => s
  | some t => { s with bank := tryPay cfg s.bank t.sender t.fee, data := KV.del s.data (hid, nonce, contract) }

/-! ## End of block -/

/-- The loop of `cleanupTimedOutBatches` (abci.go 281-289) and of `CleanAllBatchesAndTxs` (keeper.go 1551-1556). -/
def cancelIf (due : Batch → Bool) : List Batch → State → State
  | [], s => s
  | b :: bs, s => cancelIf due bs (if due b then (cancelBatch s b.hid b.token b.nonce).getD s else s)

/-- The loop of `cleanupTimedOutOutgoingTx` (abci.go 301-327) and of `CleanAllBatchesAndTxs` (keeper.go 1560-1579). -/
def refundIf (cfg : Cfg) (hid : Nat) (due : Tx → Bool) : List Tx → State → Option State
  | [], s => some s
  | tx :: txs, s =>
    if due tx && !((batchesOf s hid).any (fun b => b.txs.any (fun t => decide (t.id = tx.id)))) then
      match refund cfg s hid tx.id tx.sender with
      | none => none
      | some (s', _) => refundIf cfg hid due txs s'
    else refundIf cfg hid due txs s

/-- `cleanupTimedOutBatches` followed by `cleanupTimedOutOutgoingTx` (abci.go 273-328) at the projected height of the
counterparty chain. -/
def timeouts (cfg : Cfg) (s : State) (hid projected : Nat) (paused : Bool) : Option State :=
  let s1 := cancelIf (fun b => decide (b.timeout < projected) || paused) (batchesOf s hid) s
  match poolTxs s1 hid with
  | none => none
  | some txs => refundIf cfg hid (fun tx => decide (tx.timeout < projected) || paused) txs s1

/-- `CleanPoolTransactions` (pool.go 108-121). -/
def cleanPool (cfg : Cfg) (hid : Nat) : List Tx → State → Option State
  | [], s => some s
  | tx :: txs, s =>
    match refund cfg s hid tx.id tx.sender with
    | none => none
    | some (s', _) => cleanPool cfg hid txs s'

/-- The reset of a chain (abci.go 44-56): `CleanAllBatchesAndTxs`, then `CleanPoolTransactions`. -/
def cleanAll (cfg : Cfg) (s : State) (hid : Nat) : Option State :=
  let s1 := cancelIf (fun _ => true) (batchesOf s hid) s
  match poolTxs s1 hid with
  | none => none
  | some txs =>
    match refundIf cfg hid (fun _ => true) txs s1 with
    | none => none
    | some s2 =>
      match poolTxs s2 hid with
      | none => none
      | some txs2 => cleanPool cfg hid txs2 s2

/-! ## Operations -/

/-- What can happen. -/
inductive Op where
  | send (sender hid dest : Nat) (d : Denom) (amount : Nat) (feeDenom : Denom) (fee timeout : Nat)
  | cancelSend (sender hid id : Nat)
  | requestBatch (hid : Nat) (d : Denom) (timeout : Nat)
  | requestBatchIds (hid : Nat) (d : Denom) (timeout : Nat) (ids : List Nat)
  | deposit (hid addr amount : Nat) (receiver : Option Nat)
  | executed (hid token nonce orch : Nat)
  | timeouts (hid projected : Nat) (paused : Bool)
  | cleanAll (hid : Nat)
  | link (hid addr : Nat) (d : Denom)
  | transfer (src dst : Nat) (d : Denom) (n : Nat)
  | dataRequest (origin hid contract fee : Nat)
  | dataExecute (hid nonce contract : Nat) (votes : List Nat)
  | dataTimeout (hid nonce contract : Nat)
  deriving Repr

/-- Outcome of an operation: done, refused without effect, or a panic. -/
inductive Out where
  | ok (evs : List Ev)
  | err
  | panic
  deriving DecidableEq, Repr

/-- One operation.

`send`: msg_server_hyperion.go 124-206 (the checks of destination, minimum fee and pause only refuse more).
`cancelSend`: msg_server_helios.go 409-438.  `requestBatch`, `requestBatchIds`: msg_server_hyperion.go 218-318.
`deposit`, `executed`: the attestation handler run by `processAttestation` (attestation.go 286-308), which keeps the changes
only without an error.  `link`: an observed ERC20 deployment or a token of the chain parameters.  `transfer`: any other
module moving coins between users. -/
def step (cfg : Cfg) (s : State) : Op → State × Out
  | .send sender hid dest d amount feeDenom fee timeout =>
    match addToPool s sender hid dest d amount feeDenom fee timeout with
    | none => (s, .err)
    | some (s', tx) => (s', .ok [.sent tx])
  | .cancelSend sender hid id =>
    match refund cfg s hid id sender with
    | none => (s, .panic)
    | some (s', true) => (s', .ok [])
    | some (_, false) => (s, .err)
  | .requestBatch hid d timeout =>
    match linkByDenom s.links hid d with
    | none => (s, .err)
    | some l =>
      match buildBatch cfg s hid l.addr timeout with
      | none => (s, .err)
      | some (s', b) => (s', .ok [.batch b])
  | .requestBatchIds hid d timeout ids =>
    match linkByDenom s.links hid d with
    | none => (s, .err)
    | some l =>
      match buildBatchIds cfg s hid l.addr timeout ids with
      | none => (s, .err)
      | some (s', b) => (s', .ok [.batch b])
  | .deposit hid addr amount receiver =>
    match deposit cfg s hid addr amount receiver with
    | none => (s, .err)
    | some (s', evs) => (s', .ok evs)
  | .executed hid token nonce orch =>
    match batchExecuted cfg s hid token nonce orch with
    | none => (s, .panic)
    | some s' => (s', .ok [])
  | .timeouts hid projected paused =>
    match timeouts cfg s hid projected paused with
    | none => (s, .panic)
    | some s' => (s', .ok [])
  | .cleanAll hid =>
    match cleanAll cfg s hid with
    | none => (s, .panic)
    | some s' => (s', .ok [])
  | .link hid addr d =>
    if (linkByAddr s.links hid addr).isSome || (linkByDenom s.links hid d).isSome then (s, .err)
    else (createLink s hid addr d false, .ok [.created d])
  | .transfer src dst d n =>
    match s.bank.send (.user src) (.user dst) d n with
    | none => (s, .err)
    | some b => ({ s with bank := b }, .ok [])
  | .dataRequest origin hid contract fee =>
    match dataRequest s origin hid contract fee with
    | none => (s, .err)
    | some s' => (s', .ok [.data hid (s'.lastBatch hid)])
  | .dataExecute hid nonce contract votes => (dataExecute cfg s hid nonce contract votes, .ok [])
  | .dataTimeout hid nonce contract => (dataTimeout cfg s hid nonce contract, .ok [])

/-- A history: the final state and the outcomes. -/
def run (cfg : Cfg) (s : State) : List Op → State × List Out
  | [] => (s, [])
  | o :: os =>
    let (s', out) := step cfg s o
    let (s'', outs) := run cfg s' os
    (s'', out :: outs)

end Hyperion
