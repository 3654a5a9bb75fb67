import Verif.Lib.KV
/-!
# History of bridge transfers

The archive of finished transfers (helios-chain/x/hyperion/keeper/archive_tx.go) and the query that shows transfers page by page:
`QueryGetTransactionsByPageAndSize` (helios-chain/x/hyperion/keeper/grpc_query_helios.go 329-642), behind
`eth_getHyperionAccountTransferTxsByPageAndSize` and `eth_getAllHyperionTransferTxs` (helios-chain/rpc/backend/hyperion.go 20-66).

Simplified: a transfer is given by its number, sender and destination. The addresses of all records are written by the callers in one form
(`AnyToHexAddress(…).String()`: pool.go 225, batch.go 183, external_data.go 109, abci.go 149), so they are compared as numbers. The transfers under way
come to the query as lists, filtered and sorted as in grpc_query_helios.go 358-400, 440-482 and 514-588. Decoding, prices and token addresses are left out.
Page positions beyond 2^64 - 100 are treated as numbers without bound; to tell the difference takes as many transfers.
-/
namespace History

/-- A finished transfer, as far as it is looked at. -/
structure Rec where
  id : Nat
  sender : Nat
  dest : Nat
deriving DecidableEq, Repr

/-- One archive: records by account and index, and the list of the last ones of all accounts. -/
structure Book where
  byAccount : List ((Nat × Nat) × Rec)
  recent : List Rec
deriving DecidableEq, Repr

/-- The module's own store, used up to height 34800, and the archive store, used from then on (helios-chain/testnet/testnet.go 4). -/
structure St where
  old : Book
  new : Book
deriving DecidableEq, Repr

def init : St := ⟨⟨[], []⟩, ⟨[], []⟩⟩

/-- Which of the two is used at a height, archive_tx.go 24, 42, 54, 86, 110, 172. -/
def St.at (s : St) (height : Nat) : Book := if 34800 < height then s.new else s.old

/-- `FindLastFinalizedTxIndex`, archive_tx.go 108-137: the index of the last key of the account, 0 if there is none. Keys of one account are ordered by
index, see `indexKey`. -/
def lastIndex (b : List ((Nat × Nat) × Rec)) (a : Nat) : Nat :=
  b.foldl (fun m e => if e.1.1 = a then max m e.1.2 else m) 0

/-- `%020d` in `GetArchiveStoreFinalizedTxKey`, x/hyperion/types/key.go 385-393: `n` decimal digits, the highest first. -/
def digits : Nat → Nat → List Nat
  | 0, _ => []
  | n + 1, i => i / 10 ^ n % 10 :: digits n i

/-- The end of a key in the archive, after the account. -/
def indexKey (i : Nat) : List Nat := digits 20 i

/-- `StoreLastFinalizedTxIndex`, archive_tx.go 53-83: the list keeps 100. -/
def pushRecent (l : List Rec) (r : Rec) : List Rec :=
  if 100 < (l ++ [r]).length then (l ++ [r]).drop ((l ++ [r]).length - 100) else l ++ [r]

/-- `StoreFinalizedTx`, archive_tx.go 14-51: under the next index of the sender, in the list of the last ones, and, if it is another account, under the
next index of the destination. -/
def Book.store (b : Book) (r : Rec) : Book :=
  let m := KV.set b.byAccount (r.sender, lastIndex b.byAccount r.sender + 1) r
  let m := if r.dest ≠ r.sender then KV.set m (r.dest, lastIndex m r.dest + 1) r else m
  ⟨m, pushRecent b.recent r⟩

def store (s : St) (height : Nat) (r : Rec) : St :=
  if 34800 < height then { s with new := s.new.store r } else { s with old := s.old.store r }

/-- All records that were stored, one after the other, with the heights. -/
def run (s : St) : List (Nat × Rec) → St
  | [] => s
  | (h, r) :: rest => run (store s h r) rest

/-- `FindFinalizedTxsByIndexToIndex`, archive_tx.go 171-214: from index `lo + 1` to `hi`, in the order of the keys. -/
def slice (b : List ((Nat × Nat) × Rec)) (a lo hi : Nat) : List Rec :=
  (List.range' (lo + 1) (hi - lo)).filterMap (fun i => KV.get b (a, i))

/-- The loops of grpc_query_helios.go 413-424, 495-506 and 589-600: takes the entries with positions from `lo` up to `hi`, counts what it passes (`c`),
and ends when `limit` are there. -/
def part (limit lo hi : Nat) : Nat → List Rec → Nat → List Rec → List Rec × Nat
  | _, acc, c, [] => (acc, c)
  | i, acc, c, x :: xs =>
    let acc := if lo ≤ i ∧ i < hi then acc ++ [x] else acc
    if limit ≤ acc.length then (acc, c + 1) else part limit lo hi (i + 1) acc (c + 1) xs

/-- What is under way: withdrawals not in a batch, withdrawals in batches, deposits; each newest first. -/
structure UnderWay where
  unbatched : List Rec
  batched : List Rec
  deposits : List Rec
deriving DecidableEq, Repr

/-- grpc_query_helios.go 353-425 and 428-507: the withdrawals of a page. -/
def withdrawals (u : UnderWay) (offset limit : Nat) : List Rec × Nat :=
  let t1 := if 0 < limit then part limit offset (offset + limit) 0 [] 0 u.unbatched else ([], 0)
  let left := limit - t1.1.length
  if 0 < left then part limit (offset - t1.2) (offset - t1.2 + left) 0 t1.1 t1.2 u.batched else t1

/-- grpc_query_helios.go 510-601: the deposits after them. Their positions are compared with those of the page itself. -/
def underWay (u : UnderWay) (offset limit : Nat) : List Rec :=
  let t := withdrawals u offset limit
  if 0 < limit - t.1.length then (part limit offset (offset + limit) 0 t.1 t.2 u.deposits).1 else t.1

/-- The query for one account, grpc_query_helios.go 329-642 with 606-627 for the finished ones. -/
def query (s : St) (height : Nat) (u : UnderWay) (a offset limit : Nat) : List Rec :=
  let t := underWay u offset limit
  let left := limit - t.length
  if 0 < left then
    let b := (s.at height).byAccount
    t ++ (slice b a (lastIndex b a - left) (lastIndex b a)).reverse
  else t

/-- The query without an account, 628-635: all of the last finished ones follow, whatever the page holds already. -/
def queryAll (s : St) (height : Nat) (u : UnderWay) (offset limit : Nat) : List Rec :=
  underWay u offset limit ++ (s.at height).recent.reverse

/-- rpc/backend/hyperion.go 20-45, with an answer of no transfers as the empty list. -/
def accountPage (s : St) (height : Nat) (u : UnderWay) (a page size : Nat) : Option (List Rec) :=
  if page = 0 ∨ size = 0 ∨ 100 < size then none
  else some (query s height u a ((page - 1) * size % 18446744073709551616) size)

/-- rpc/backend/hyperion.go 47-66. -/
def allPage (s : St) (height : Nat) (u : UnderWay) (size : Nat) : Option (List Rec) :=
  if size = 0 ∨ 100 < size then none else some (queryAll s height u 0 size)

end History
