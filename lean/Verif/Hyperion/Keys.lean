import Verif.Lib.Bytes
import Verif.Lib.KV
import Verif.Lib.Sort
/-!
# Store keys of the bridge module

Models `helios-chain/x/hyperion/types/key.go`, the prefixes the keeper passes to `prefix.NewStore`, `PrefixRange`
(`keeper/keeper.go` 1198-1226) and the ranges the listing functions iterate over.  Byte strings are compared like
`bytes.Compare`.  Keys are complete keys of the module store: where the code writes through a prefix store with a key that
carries the prefix again, the model has it twice.
-/
namespace Hyperion
open Bytes

/-- Byte strings. -/
abbrev Str := List UInt8

/-- `bytes.Compare(a, b) < 0`. -/
def blt : Str → Str → Bool
  | _, [] => false
  | [], _ :: _ => true
  | x :: a, y :: b => decide (x < y) || (decide (x = y) && blt a b)

/-- Everything the module keeps under a key of its own. -/
inductive Obj where
  | ethOfValidator (hid : Nat) (val : Str)
  | validatorOfEth (hid : Nat) (addr : Str)
  | valset (hid nonce : Nat)
  | valsetConfirm (hid nonce : Nat) (val : Str)
  | params
  | attestation (hid nonce : Nat) (hash : Str)
  | withdrawal (hid id : Nat)
  | lastWithdrawalId
  | genesisWithdrawalId (hid : Nat)
  | lastBatchNonce (hid : Nat)
  | feeIndex (hid : Nat) (token : Str) (fee : Nat)
  | batch (hid nonce : Nat) (token : Str)
  | batchBlock (hid block : Nat)
  | batchConfirm (hid : Nat) (token : Str) (nonce : Nat) (val : Str)
  | lastEvent (hid : Nat) (val : Str)
  | lastObservedNonce (hid : Nat)
  | orchestrator (hid : Nat) (orc : Str)
  | lastObservedHeight (hid : Nat)
  | lastSlashedValset (hid : Nat)
  | latestValset (hid : Nat)
  | lastSlashedBatch (hid : Nat)
  | lastUnbonding
  | lastObservedValset (hid : Nat)
  | checkpoint (hid : Nat) (hash : Str)
  | blacklisted (addr : Str)
  | finalized (addr : Str) (index : Nat)
  | lastFinalized
  | externalData (hid nonce : Nat) (contract : Str)
  | externalDataBlock (hid block : Nat)
  | nonceObserved (hid nonce : Nat)
  | validatorFee (hid : Nat) (val : Str)
  | orchestratorData (orc : Str)
  | whitelist (hid : Nat)
  | skippedNonce (hid nonce : Nat)
  deriving DecidableEq, Repr

/-- `types.UInt64Bytes` / `sdk.Uint64ToBigEndian`. -/
def u64 (n : Nat) : Str := be 8 n

/-- The bytes of `"lastTxPoolId"`. -/
def lastTxPoolId : Str := [0x6c, 0x61, 0x73, 0x74, 0x54, 0x78, 0x50, 0x6f, 0x6f, 0x6c, 0x49, 0x64]

/-- The bytes of `"lastBatchId"`. -/
def lastBatchId : Str := [0x6c, 0x61, 0x73, 0x74, 0x42, 0x61, 0x74, 0x63, 0x68, 0x49, 0x64]

/-- The key of an object (key.go 27-469; the prefixes added by the callers are in attestation.go 379-603, archive_tx.go
29-99, keeper.go 1412-1466 and 1584-1592).  `genesisWithdrawalId` is the key of pool.go 738-760. -/
def key : Obj → Str
  | .ethOfValidator hid val => 0x01 :: (u64 hid ++ val)
  | .validatorOfEth hid addr => 0xfb :: (u64 hid ++ addr)
  | .valset hid nonce => 0x02 :: (u64 hid ++ u64 nonce)
  | .valsetConfirm hid nonce val => 0x03 :: (u64 hid ++ (u64 nonce ++ val))
  | .params => [0x04]
  | .attestation hid nonce hash => 0x05 :: (u64 hid ++ (u64 nonce ++ hash))
  | .withdrawal hid id => 0x06 :: (u64 hid ++ u64 id)
  | .lastWithdrawalId => 0x07 :: lastTxPoolId
  | .genesisWithdrawalId hid => 0x07 :: (lastTxPoolId ++ u64 hid)
  | .lastBatchNonce hid => 0x07 :: (lastBatchId ++ u64 hid)
  | .feeIndex hid token fee => 0x09 :: (u64 hid ++ (token ++ be 32 fee))
  | .batch hid nonce token => 0x0a :: (u64 hid ++ (u64 nonce ++ token))
  | .batchBlock hid block => 0x0b :: (u64 hid ++ u64 block)
  | .batchConfirm hid token nonce val => 0xe1 :: (u64 hid ++ (token ++ (u64 nonce ++ val)))
  | .lastEvent hid val => 0xf1 :: (u64 hid ++ (0xf1 :: (u64 hid ++ val)))
  | .lastObservedNonce hid => 0xf2 :: (u64 hid ++ u64 0)
  | .orchestrator hid orc => 0xe8 :: (u64 hid ++ orc)
  | .lastObservedHeight hid => 0xf9 :: (u64 hid ++ u64 0)
  | .lastSlashedValset hid => 0xf5 :: u64 hid
  | .latestValset hid => 0xf6 :: u64 hid
  | .lastSlashedBatch hid => 0xf7 :: u64 hid
  | .lastUnbonding => [0xf8]
  | .lastObservedValset hid => 0xfa :: (u64 hid ++ u64 0)
  | .checkpoint hid hash => 0x1b :: (u64 hid ++ hash)
  | .blacklisted addr => 0x1c :: addr
  | .finalized addr index => 0x1d :: (addr ++ u64 index)
  | .lastFinalized => [0x1e, 0x00]
  | .externalData hid nonce contract => 0x1f :: (u64 hid ++ (u64 nonce ++ contract))
  | .externalDataBlock hid block => 0x20 :: (u64 hid ++ u64 block)
  | .nonceObserved hid nonce => 0x21 :: 0x21 :: (u64 hid ++ u64 nonce)
  | .validatorFee hid val => 0x22 :: (u64 hid ++ val)
  | .orchestratorData orc => 0x23 :: orc
  | .whitelist hid => 0x24 :: 0x24 :: u64 hid
  | .skippedNonce hid nonce => 0x25 :: 0x25 :: (u64 hid ++ u64 nonce)

/-- `PrefixRange` (keeper.go 1198-1226): the loop that adds one to the last byte and carries, on the reversed string. The
flag tells that the carry ran out of the first byte. -/
def carry : Str → Str × Bool
  | [] => ([], true)
  | x :: xs => if x + 1 = 0 then (0 :: (carry xs).1, (carry xs).2) else ((x + 1) :: xs, false)

/-- `PrefixRange`: start and end of a range; no end for an empty prefix and for one of bytes 255 only. -/
def prefixRange (p : Str) : Str × Option Str :=
  if p = [] then ([], none)
  else (p, if (carry p.reverse).2 then none else some (carry p.reverse).1.reverse)

/-- `storetypes.PrefixEndBytes` of the SDK, used by `prefix.Store.Iterator(nil, nil)`: trailing bytes 255 are dropped and
the last other byte is increased. On the reversed string. -/
def prefixEndRev : Str → Option Str
  | [] => none
  | x :: xs => if x = 255 then prefixEndRev xs else some ((x + 1) :: xs)

/-- The range of `prefix.NewStore(store, p).Iterator(nil, nil)`. -/
def prefixStoreRange (p : Str) : Str × Option Str := (p, (prefixEndRev p.reverse).map List.reverse)

/-- The range of `prefix.NewStore(store, p).Iterator(start, end)` for a range of the inner keys: without an end it is the
end of the prefix store. -/
def under (p : Str) (r : Str × Option Str) : Str × Option Str :=
  (p ++ r.1, match r.2 with
    | some e => some (p ++ e)
    | none => (prefixStoreRange p).2)

/-- A key is visited by an iterator over `[start, end)`. -/
def inRange (r : Str × Option Str) (k : Str) : Bool :=
  !(blt k r.1) && (match r.2 with
    | none => true
    | some e => blt k e)

/-- The listing functions of the keeper. -/
inductive Listing where
  /-- `GetPoolTransactions`, pool.go 387; also the fee queries at 530 and 594 -/
  | waiting (hid : Nat)
  /-- `IterateOnSpecificalTokenContractOutgoingPoolByFee`, pool.go 450 -/
  | waitingOfToken (hid : Nat) (token : Str)
  /-- `IterateOutgoingTXBatches`, batch.go 382 -/
  | batches (hid : Nat)
  /-- `IterateExternalDataTxs`, external_data.go 273 -/
  | externalData (hid : Nat)
  /-- `GetValsetConfirms`, keeper.go 457 and 478 -/
  | valsetConfirms (hid nonce : Nat)
  /-- `IterateBatchConfirmByNonceAndTokenContract`, keeper.go 560 -/
  | batchConfirms (hid nonce : Nat) (token : Str)
  /-- `GetLowestFeeValidator`, keeper.go 700, 725, 750 -/
  | validatorFees (hid : Nat)
  /-- `IterateAttestations`, attestation.go 379-465 -/
  | attestations (hid : Nat)
  /-- `CleanValsets`, keeper.go 222 -/
  | cleanValsets (hid : Nat)
  /-- `CleanBatchConfirms`, keeper.go 540 -/
  | cleanBatchConfirms (hid : Nat)
  /-- `CleanLastEventByValidator`, attestation.go 590 -/
  | cleanLastEvents (hid : Nat)
  /-- `FindFinalizedTxs`, archive_tx.go 127 and 157 -/
  | finalizedOf (addr : Str)
  deriving DecidableEq, Repr

/-- The range each listing function iterates over. -/
def rangeOf : Listing → Str × Option Str
  | .waiting hid => prefixRange (0x09 :: u64 hid)
  | .waitingOfToken hid token => under [0x09] (prefixRange (u64 hid ++ token))
  | .batches hid => under [0x0a] (prefixRange (u64 hid))
  | .externalData hid => under [0x1f] (prefixRange (u64 hid))
  | .valsetConfirms hid nonce => under [0x03] (prefixRange (u64 hid ++ u64 nonce))
  | .batchConfirms hid nonce token => under [0xe1] (prefixRange (u64 hid ++ (token ++ u64 nonce)))
  | .validatorFees hid => prefixRange (0x22 :: u64 hid)
  | .attestations hid => prefixStoreRange (0x05 :: u64 hid)
  | .cleanValsets hid => prefixStoreRange (0x02 :: u64 hid)
  | .cleanBatchConfirms hid => prefixStoreRange (0xe1 :: u64 hid)
  | .cleanLastEvents hid => prefixStoreRange (0xf1 :: u64 hid)
  | .finalizedOf addr => under [0x1d] (prefixRange addr)

/-- `IterateBatchBySlashedBatchBlock` (batch.go 505-506): the inner keys start with the chain id, the bounds are block
heights. -/
def slashedBatchRange (last max : Nat) : Str × Option Str := under [0x0b] (u64 last, some (u64 max))

/-- `IterateValsetBySlashedValsetNonce` (keeper.go 386-387). -/
def slashedValsetRange (hid last max : Nat) : Str × Option Str := under (0x02 :: u64 hid) (u64 last, some (u64 max))

/-- `CleanValsetConfirms` (keeper.go 443): the prefix is the chain id alone. -/
def cleanValsetConfirmsRange (hid : Nat) : Str × Option Str := prefixStoreRange (u64 hid)

/-- `CleanAllNonceObserved` (keeper.go 1540): all chains. -/
def cleanNonceObservedRange (_hid : Nat) : Str × Option Str := prefixStoreRange [0x21]

/-- `CleanSkippedTxs` and `GetAllSkippedNonces` (keeper.go 1471, 1493). -/
def skippedRange (hid : Nat) : Str × Option Str := prefixStoreRange (0x25 :: u64 hid)

/-- `CleanAllSkippedTxs` and `GetAllSkippedNoncesWithHyperionId` (keeper.go 1481, 1514). -/
def allSkippedRange : Str × Option Str := prefixStoreRange [0x25]

/-! ## The skipped nonces as a store -/

/-- `types.SkippedNonceInfo`. -/
structure Skipped where
  start : Nat
  stop : Nat
  deriving DecidableEq, Repr

/-- The part of the module store with the skipped nonces. -/
abbrev SkipStore := List (Str × Skipped)

/-- `StoreSkippedNonce` (keeper.go 1434-1443). -/
def storeSkipped (m : SkipStore) (hid nonce : Nat) (i : Skipped) : SkipStore := KV.set m (key (.skippedNonce hid nonce)) i

/-- `RemoveSkippedNonce` (keeper.go 1463-1467). -/
def removeSkipped (m : SkipStore) (hid nonce : Nat) : SkipStore := KV.del m (key (.skippedNonce hid nonce))

/-- `GetSkippedNonceInfo` and `HasSkippedNonce` (keeper.go 1445-1461). -/
def skippedInfo (m : SkipStore) (hid nonce : Nat) : Option Skipped := KV.get m (key (.skippedNonce hid nonce))

/-- Iteration in ascending order. -/
def iterate {α : Type} (m : List (Str × α)) (r : Str × Option Str) : List (Str × α) :=
  StableSort.sortBy (fun a b => !(blt b.1 a.1)) (m.filter (fun e => inRange r e.1))

/-- `GetAllSkippedNonces` (keeper.go 1492-1511): the nonce is read from the first 8 bytes of the key within the prefix
store. -/
def listSkipped (m : SkipStore) (hid : Nat) : List (Nat × Skipped) :=
  (iterate m (skippedRange hid)).map (fun e => (unbe ((e.1.drop 9).take 8), e.2))

/-- `GetAllSkippedNoncesWithHyperionId` (keeper.go 1513-1536): chain id and nonce are both read from the first 8 bytes of
the key within the prefix store. -/
def listAllSkipped (m : SkipStore) : List (Nat × Nat × Skipped) :=
  (iterate m allSkippedRange).map (fun e => (unbe ((e.1.drop 1).take 8), unbe ((e.1.drop 1).take 8), e.2))

/-- `CleanSkippedTxs` (keeper.go 1469-1477). -/
def cleanSkipped (m : SkipStore) (hid : Nat) : SkipStore := m.filter (fun e => !(inRange (skippedRange hid) e.1))

/-- `CleanAllSkippedTxs` (keeper.go 1479-1490). -/
def cleanAllSkipped (m : SkipStore) : SkipStore := m.filter (fun e => !(inRange allSkippedRange e.1))

/-- Operations on the skipped nonces. -/
inductive SkipOp where
  | store (hid nonce : Nat) (i : Skipped)
  | remove (hid nonce : Nat)
  | clean (hid : Nat)
  | cleanAll
  deriving DecidableEq, Repr

/-- One operation. -/
def skipStep (m : SkipStore) : SkipOp → SkipStore
  | .store hid nonce i => storeSkipped m hid nonce i
  | .remove hid nonce => removeSkipped m hid nonce
  | .clean hid => cleanSkipped m hid
  | .cleanAll => cleanAllSkipped m

/-- A history from the empty store. -/
def skipRun (ops : List SkipOp) : SkipStore := ops.foldl skipStep []

end Hyperion
