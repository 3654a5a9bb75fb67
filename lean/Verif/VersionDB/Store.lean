import Verif.VersionDB.Sorter
/-!
# The versioned store

Models helios-chain/versiondb/tsrocksdb (store.go, iterator.go, comparator.go), and versiondb/store.go and streaming_service.go on top of it.
RocksDB itself is modelled by what it promises for a comparator with timestamps: the entries of the column family are kept in the order of the
comparator; writing replaces the entry with an equal key; reading at a timestamp sees for every user key its first entry that is not newer.
Write batches are atomic.
-/
namespace VersionDB
open Bytes

/-- `bytes.Compare`. -/
def bytesCompare (a b : List UInt8) : Ordering := if a < b then .lt else if b < a then .gt else .eq

/-- An internal key without and the timestamp of it (comparator.go 44-64). -/
def userKey (ik : List UInt8) : List UInt8 := ik.take (ik.length - 8)
def tsBytes (ik : List UInt8) : List UInt8 := ik.drop (ik.length - 8)

/-- `compareTS` (comparator.go 22-36). -/
def compareTS (a b : List UInt8) : Ordering :=
  if unle a < unle b then .lt else if unle b < unle a then .gt else .eq

/-- `compare` (comparator.go 38-52): by user key, then the larger timestamp first. -/
def compareKeys (a b : List UInt8) : Ordering :=
  match bytesCompare (userKey a) (userKey b) with
  | .eq => (compareTS (tsBytes a) (tsBytes b)).swap
  | o => o

/-- An entry of the column family: user key and timestamp in one, and the value, `none` for a deletion. -/
structure Entry where
  ikey : List UInt8
  val : Option (List UInt8)
deriving DecidableEq, Repr

/-- The internal key that RocksDB forms from a user key and a timestamp. -/
def internalKey (key : List UInt8) (ts : List UInt8) : List UInt8 := key ++ ts

/-- Writing one entry: into its place in the order of the comparator, over an entry with an equal key. -/
def putEntry (e : Entry) : List Entry → List Entry
  | [] => [e]
  | x :: xs =>
    match compareKeys e.ikey x.ikey with
    | .lt => e :: x :: xs
    | .eq => e :: xs
    | .gt => x :: putEntry e xs

/-- `GetCFWithTS`: the first entry from `(key, ts)` on, if it is for this key; the timestamp found and the value. -/
def getEntry (db : List Entry) (key : List UInt8) (ts : List UInt8) : Option (Nat × Option (List UInt8)) :=
  match db.find? (fun e => compareKeys e.ikey (internalKey key ts) != .lt) with
  | none => none
  | some e => if userKey e.ikey = key then some (unle (tsBytes e.ikey), e.val) else none

/-- A row of an iterator: key, timestamp, value. -/
structure Row where
  key : List UInt8
  ts : Nat
  value : List UInt8
deriving DecidableEq, Repr

/-- What a RocksDB iterator with a timestamp runs over: for every user key the first entry that is not too new, unless it is a deletion.
`last` is the last user key for which such an entry was seen. -/
def visible (v : Nat) : (last : Option (List UInt8)) → List Entry → List Row
  | _, [] => []
  | last, e :: es =>
    if v < unle (tsBytes e.ikey) then visible v last es
    else if last = some (userKey e.ikey) then visible v last es
    else match e.val with
      | none => visible v (some (userKey e.ikey)) es
      | some x => ⟨userKey e.ikey, unle (tsBytes e.ikey), x⟩ :: visible v (some (userKey e.ikey)) es

/-- The store: the column family, the latest version (in the default column family), and `skipVersionZero`. -/
structure Store where
  db : List Entry
  latest : Option Nat
  skipVersionZero : Bool
deriving DecidableEq, Repr

/-- `storePrefix`, `"s/k:%s/"` (store.go 20, 345-347). -/
def storePrefix (store : List UInt8) : List UInt8 := [115, 47, 107, 58] ++ store ++ [47]

/-- `types.StoreKVPair`. -/
structure StorePair where
  store : List UInt8
  delete : Bool
  key : List UInt8
  value : List UInt8
deriving DecidableEq, Repr

/-- The entry written for a pair (store.go 84-91): `prependStoreKey` (349-352). -/
def entryOf (version : Nat) (p : StorePair) : Entry :=
  ⟨internalKey (storePrefix p.store ++ p.key) (le 8 version), if p.delete then none else some p.value⟩

/-- `PutAtVersion` (store.go 75-94), also what `ListenCommit` does after `ListenFinalizeBlock` set the height (streaming_service.go 27-34). -/
def putAtVersion (s : Store) (version : Nat) (cs : List StorePair) : Store :=
  { s with
    db := cs.foldl (fun db p => putEntry (entryOf version p) db) s.db
    latest := some version }

/-- `FeedChangeSet` (store.go 171-192): no latest version. -/
def feedChangeSet (s : Store) (version : Nat) (store : List UInt8) (cs : List Pair) : Store :=
  { s with db := cs.foldl (fun db p => putEntry (entryOf version ⟨store, p.delete, p.key, p.value⟩) db) s.db }

/-- `Import` (store.go 194-223). The batches are written one after another; only the end is modelled. -/
def importEntries (s : Store) (version : Nat) (entries : List (List UInt8 × List UInt8 × List UInt8)) : Store :=
  { s with
    db := entries.foldl (fun db e => putEntry (entryOf version ⟨e.1, false, e.2.1, e.2.2⟩) db) s.db
    latest := some version }

/-- `newTSReadOptions` (store.go 329-343): no version is the largest one; a negative version wraps around. -/
def readTS (version : Option Int) : Nat :=
  match version with
  | none => 2 ^ 64 - 1
  | some v => (v % 2 ^ 64).toNat

/-- `GetAtVersionSlice` and `GetAtVersion` (store.go 96-123). -/
def getAtVersion (s : Store) (store key : List UInt8) (version : Option Int) : Option (List UInt8) :=
  match getEntry s.db (storePrefix store ++ key) (le 8 (readTS version)) with
  | none => none
  | some (ts, value) => if s.skipVersionZero ∧ ts = 0 then none else value

/-- `HasAtVersion` (store.go 125-133). -/
def hasAtVersion (s : Store) (store key : List UInt8) (version : Option Int) : Bool := (getAtVersion s store key version).isSome

/-- `GetLatestVersion` (store.go 135-147): 0 if there is none, although the comment says -1. -/
def getLatestVersion (s : Store) : Nat := s.latest.getD 0

/-- `cpIncr` (store.go 361-383) on the reversed bytes: `none` on overflow. -/
def incrRev : List UInt8 → Option (List UInt8)
  | [] => none
  | b :: bs => if b < 255 then some ((b + 1) :: bs) else (incrRev bs).map (0 :: ·)

def cpIncr (bz : List UInt8) : Option (List UInt8) := (incrRev bz.reverse).map List.reverse

/-- `iterateWithPrefix` (store.go 385-400), for a prefix that is not empty. -/
def iterateWithPrefix (pre : List UInt8) (start stop : Option (List UInt8)) : List UInt8 × Option (List UInt8) :=
  (pre ++ start.getD [],
   match stop with
   | none => cpIncr pre
   | some e => some (pre ++ e))

/-- The loop `for ; it.Valid(); it.Next()` forwards, from the row under the source's position (iterator.go 68-103, 123-150). -/
def forward (stop : Option (List UInt8)) (skip : Bool) : List Row → List Row
  | [] => []
  | r :: rs =>
    if stop.any (fun e => decide (e ≤ r.key)) then []
    else if skip && r.ts == 0 then forward stop skip rs
    else r :: forward stop skip rs

/-- The same backwards: the rows are those from the source's position to the first one. -/
def backward (start : List UInt8) (skip : Bool) : List Row → List Row
  | [] => []
  | r :: rs =>
    if r.key < start then []
    else if skip && r.ts == 0 then backward start skip rs
    else r :: backward start skip rs

/-- Where a reverse iterator starts (iterator.go 23-38): the rows from there to the first one. -/
def reverseRows (stop : Option (List UInt8)) (rows : List Row) : List Row :=
  match stop with
  | none => rows.reverse
  | some e =>
    match rows.dropWhile (fun r => decide (r.key < e)) with
    | [] => rows.reverse
    | r :: _ =>
      if e ≤ r.key then (rows.takeWhile (fun r => decide (r.key < e))).reverse
      else r :: (rows.takeWhile (fun r => decide (r.key < e))).reverse

/-- `iteratorAtVersion` (store.go 159-169), and all an iterator shows: keys without the prefix (iterator.go 112-115) and values.
`none` is the error for an empty bound. -/
def iteratorAtVersion (s : Store) (store : List UInt8) (start stop : Option (List UInt8)) (version : Option Int) (reverse : Bool) :
    Option (List (List UInt8 × List UInt8)) :=
  if start = some [] ∨ stop = some [] then none
  else
    let pre := storePrefix store
    let range := iterateWithPrefix pre start stop
    let rows := visible (readTS version) none s.db
    let shown := if reverse then backward range.1 s.skipVersionZero (reverseRows range.2 rows)
      else forward range.2 s.skipVersionZero (rows.dropWhile (fun r => decide (r.key < range.1)))
    some (shown.map (fun r => (r.key.drop pre.length, r.value)))

end VersionDB
