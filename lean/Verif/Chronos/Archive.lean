import Verif.Hyperion.Claims
import Verif.Lib.KV
import Verif.Lib.Sort
/-!
# What the module of scheduled calls remembers (`/repo/helios-chain/x/chronos`)

Every execution and every cancellation of a scheduled call leaves a transaction behind, which users look up by number, by
hash, by block and by call; calls that have ended are kept as well.  Modelled: `keeper/archive_tx.go` (all of it except
the conversion to the form shown to users), the places that write (`keeper/keeper.go` 294-324, 751-833, 873-943) and the
queries that list (`keeper/grpc_query_cron.go` 232-497).

Up to block 34800 everything was written to the store of the module, under numeric keys; since then it is written to the
*archive store*, under keys made of text.  The archive store belongs to the fork of the SDK, which is not available here:
it is taken to be an ordered key-value store, of which a transaction that fails leaves no trace.  Two keys are the same
when their bytes are (that the byte slices of the prefixes are never written through by `append` is taken for granted).
Numbers of transactions do not wrap around at `2^64` here.

The functions that execute and cancel are called from `EndBlock` only, the body of which is commented out
(`module.go` 153-200); of what is modelled here the application at this commit reaches `RemoveCron` and the queries.
-/
namespace CronArchive
open Hyperion (Str dec)

/-- `types.CronTransactionResult`.  `body` stands for the transaction, its result, the block hash and the addresses. -/
structure Tx where
  number : Nat
  block : Nat
  hash : Str
  cron : Nat
  body : Nat
  deriving DecidableEq, Repr

/-- `types.Cron`, of which only the identifier and the flag `Archived` matter here. -/
structure Cron where
  id : Nat
  archived : Bool
  body : Nat
  deriving DecidableEq, Repr

/-- What a key leads to. -/
inductive Val where
  | tx (t : Tx)
  | cron (c : Cron)
  | num (n : Nat)
  | hashes (l : List Str)
  | nothing
  deriving DecidableEq, Repr

/-- The keys of the old store (`types/keys.go` 23-88), where numbers are written as eight bytes each. -/
inductive Key where
  | tx (n : Nat)
  | index (cron n : Nat)
  | hash (h : Str)
  | block (b : Nat)
  | cron (id : Nat)
  | archived
  | refunded
  | executed
  | total
  deriving DecidableEq, Repr

/-- The keys of the archive store (`types/keys.go` 90-100, `archive_tx.go`): `"tx:"`, `"nid:"` and `"b:"` followed by
numbers in decimal, the text of a hash, a bare decimal number, and four words. -/
def text : Key → Str
  | .tx n => [116, 120, 58] ++ dec n
  | .index c n => [110, 105, 100, 58] ++ dec c ++ dec n
  | .hash h => h
  | .block b => [98, 58] ++ dec b
  | .cron i => dec i
  | .archived => [97, 114, 99, 104, 105, 118, 101, 100, 95, 99, 114, 111, 110, 95, 99, 111, 117, 110, 116]
  | .refunded => [114, 101, 102, 117, 110, 100, 101, 100, 95, 108, 97, 115, 116, 95, 98, 108, 111, 99, 107, 95, 99, 111,
      117, 110, 116]
  | .executed => [101, 120, 101, 99, 117, 116, 101, 100, 95, 108, 97, 115, 116, 95, 98, 108, 111, 99, 107, 95, 99, 111,
      117, 110, 116]
  | .total => [99, 114, 111, 110, 95, 99, 111, 117, 110, 116]

/-- The two stores and the number of the next transaction (`StoreGetNonce`, `keeper.go` 1403-1415: it starts at 1). -/
structure State where
  next : Nat
  arch : List (Str × Val)
  old : List (Key × Val)
  deriving Repr

/-- Nothing has happened. -/
def init : State := ⟨1, [], []⟩

/-- `testnet.TESTNET_BLOCK_NUMBER_UPDATE_0 < int64(ctx.BlockHeight())` (`testnet/testnet.go` 4). -/
def late (h : Nat) : Bool := decide (34800 < h)

/-- Writing, in block `h`. -/
def put (s : State) (h : Nat) (k : Key) (v : Val) : State :=
  if late h then { s with arch := KV.set s.arch (text k) v } else { s with old := KV.set s.old k v }

/-- Reading, in block `h`. -/
def read (s : State) (h : Nat) (k : Key) : Option Val :=
  if late h then KV.get s.arch (text k) else KV.get s.old k

/-! ## Reading -/

/-- `GetCronTransactionResultByNonce` (`archive_tx.go` 36-58).  `MustUnmarshal` of something else would panic; `none`
here. -/
def byNumber (s : State) (h n : Nat) : Option Tx :=
  match read s h (.tx n) with
  | some (.tx t) => some t
  | _ => none

/-- `sdk.BigEndianToUint64`: nothing counts as 0, and of other values the first eight bytes are taken; `other` says what
number that gives. -/
def number (other : Val → Nat) : Val → Nat
  | .num n => n
  | .nothing => 0
  | v => other v

/-- `GetCronTransactionResultByHash` with `GetTxNonceByHash` (`archive_tx.go` 60-66, 298-316). -/
def byHash (other : Val → Nat) (s : State) (h : Nat) (hash : Str) : Option Tx :=
  match read s h (.hash hash) with
  | none => none
  | some v => byNumber s h (number other v)

/-- `GetBlockTxHashs` (`archive_tx.go` 248-278).  A value that is not a list would not parse. -/
def hashesOf (s : State) (h b : Nat) : Option (List Str) :=
  match read s h (.block b) with
  | some (.hashes l) => some l
  | _ => none

/-- `GetCronTransactionResultsByBlockNumber` (`archive_tx.go` 68-87): the loop stops once it has collected 100.
`GetCronTransactionReceiptsByBlockNumber` (107-127) is the same loop. -/
def ofBlock (other : Val → Nat) (s : State) (h b : Nat) : Option (List Tx) :=
  (hashesOf s h b).map (fun l => (l.filterMap (byHash other s h)).take 100)

/-- `GetArchivedCron` (`archive_tx.go` 14-34). -/
def archivedCron (s : State) (h id : Nat) : Option Cron :=
  match read s h (.cron id) with
  | some (.cron c) => some c
  | _ => none

/-- A counter (`archive_tx.go` 154-161, 176-193, 204-219, 230-245). -/
def counter (s : State) (h : Nat) (k : Key) : Nat :=
  match read s h k with
  | some (.num n) => n
  | _ => 0

/-- `int32` of a `uint64`. -/
def toInt32 (n : Nat) : Int :=
  if n % 4294967296 < 2147483648 then (n % 4294967296 : Nat) else (n % 4294967296 : Nat) - 4294967296

/-- `uint64` of an `int32`. -/
def ofInt32 (i : Int) : Nat := (i % 18446744073709551616).toNat

/-- `GetArchivedCronCount` as `QueryGetCronStatistics` reports it (`grpc_query_cron.go` 509). -/
def archivedCount (s : State) (h : Nat) : Nat := ofInt32 (toInt32 (counter s h .archived))

/-- `GetTotalCronCount` (`archive_tx.go` 154-160): always from the archive store. -/
def totalCount (s : State) : Nat :=
  match KV.get s.arch (text .total) with
  | some (.num n) => n
  | _ => 0

/-- The order of keys: byte by byte. -/
def le : Str → Str → Bool
  | [], _ => true
  | _ :: _, [] => false
  | a :: as, b :: bs => if a < b then true else if b < a then false else le as bs

/-- A store seen under a prefix, in the order of its keys (`prefix.NewStore` and its iterator). -/
def under (s : State) (pre : Str) : List (Str × Val) :=
  StableSort.sortBy (fun a b => le a.1 b.1)
    (s.arch.filterMap (fun e => if pre.isPrefixOf e.1 then some (e.1.drop pre.length, e.2) else none))

/-- The transaction under `"tx:"` and a key found in an index (`grpc_query_cron.go` 251-255, 325-329). -/
def follow (s : State) (e : Str × Val) : Option Tx :=
  match KV.get s.arch ([116, 120, 58] ++ e.1) with
  | some (.tx t) => some t
  | _ => none

/-- `query.Paginate` with an offset and a limit: entries are skipped and counted before they are looked at. -/
def page {α : Type} (off lim : Nat) (l : List α) : List α := (l.drop off).take lim

/-- `QueryGetCronTransactionsByPageAndSize` after the switch (`grpc_query_cron.go` 304-348), given the identifier of the
call that the address belongs to. -/
def txsOf (s : State) (cron off lim : Nat) : List Tx :=
  (page off lim (under s ([110, 105, 100, 58] ++ dec cron))).filterMap (follow s)

/-- `QueryGetCronTransactionReceiptsByPageAndSize` after the switch (`grpc_query_cron.go` 232-272): the prefix is
`"r:"`. -/
def receiptsOf (s : State) (cron off lim : Nat) : List Tx :=
  (page off lim (under s ([114, 58] ++ dec cron))).filterMap (follow s)

/-- `QueryGetAllCronTransactionsByPageAndSize`, `QueryGetAllCronTransactionReceiptsByPageAndSize` after the switch
(`grpc_query_cron.go` 382-412, 442-471). -/
def allTxs (s : State) (off lim : Nat) : List Tx :=
  (page off lim (under s [116, 120, 58])).filterMap (fun e => match e.2 with | .tx t => some t | _ => none)

/-! ## Writing -/

/-- `StoreCronTransactionResult`, `StoreSetTransactionNonceByHash`, `StoreSetTransactionHashInBlock`, `StoreSetNonce`, in
this order (`archive_tx.go` 280-296, 318-346; `keeper.go` 826-830, 937-940). -/
def record (s : State) (h cron : Nat) (hash : Str) (body : Nat) : State :=
  let n := s.next
  let s := put s h (.tx n) (.tx ⟨n, h, hash, cron, body⟩)
  let s := put s h (.index cron n) .nothing
  let s := put s h (.hash hash) (.num n)
  let s := put s h (.block h) (.hashes ((hashesOf s h h).getD [] ++ [hash]))
  { s with next := n + 1 }

/-- The end of `executeCron` (`keeper.go` 790-832): the transaction is recorded and counted, and then the gas used is
read from the response of the execution, which is a nil pointer when the execution failed (`gas = none`): a panic. -/
def execute (s : State) (h cron : Nat) (hash : Str) (body : Nat) (gas : Option Nat) : Option (State × Nat) :=
  let s := record s h cron hash body
  let s := put s h .executed (.num (counter s h .executed + 1))
  gas.map (fun g => (s, g))

/-- `RemoveCron` as far as the archive is concerned (`keeper.go` 303-321): `refund` says whether money was sent back. -/
def remove (s : State) (h : Nat) (c : Cron) (refund : Bool) : State :=
  let s := if refund then put s h .refunded (.num (counter s h .refunded + 1)) else s
  let s := put s h (.cron c.id) (.cron { c with archived := true })
  put s h .archived (.num (ofInt32 (toInt32 ((toInt32 (counter s h .archived) + 1) % 4294967296).toNat)))

/-- What happens.  `h` is the block. -/
inductive Op where
  /-- `emitCronCancelledEvent` (`keeper.go` 873-943). -/
  | cancelled (h cron : Nat) (hash : Str) (body : Nat)
  /-- An execution. -/
  | executed (h cron : Nat) (hash : Str) (body : Nat) (gas : Option Nat)
  | removed (h : Nat) (c : Cron) (refund : Bool)
  /-- `SetTotalCronCount`, called by `DeductFeesActivesCrons` (`keeper.go` 176), whatever the block. -/
  | counted (n : Nat)
  deriving DecidableEq, Repr

/-- One step; a panic changes nothing (the block is not committed). -/
def step (s : State) : Op → State
  | .cancelled h c x b => record s h c x b
  | .executed h c x b g => match execute s h c x b g with
    | some (s', _) => s'
    | none => s
  | .removed h c r => remove s h c r
  | .counted n => { s with arch := KV.set s.arch (text .total) (.num n) }

/-- A history. -/
def run (ops : List Op) : State := ops.foldl step init

end CronArchive
