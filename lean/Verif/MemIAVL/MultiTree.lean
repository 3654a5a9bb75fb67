import Verif.Lib.Sort
import Verif.MemIAVL.Hash
/-!
# memiavl: several trees under one version

Models `/repo/helios-chain/memiavl/multitree.go` (versions, store upgrades, change sets, commit info, log replay) and
the log of `github.com/tidwall/wal` it uses, as far as `multitree.go` and `db.go` call it.

Simplifications: `int64`/`uint32` versions are `Nat`; only the `uint64` subtraction of `walIndex` can wrap and it is
modelled with the wrap-around; `treesByName` is always rebuilt from `trees` (92-98, 236-242), so a lookup in it is a
search in `trees`; caches and `zeroCopy` are left out; protobuf encoding of log entries is left out.
-/
namespace MemIAVL

/-- Store names, compared byte-wise by Go's `<` on strings. -/
abbrev Name := List UInt8

/-- `KVPair` of a change set (kv.pb.go). -/
structure Pair where
  delete : Bool
  key : Key
  value : Val
deriving Repr, DecidableEq

/-- `NamedChangeSet` (changeset.pb.go / wal.pb.go). -/
structure NamedChangeSet where
  name : Name
  pairs : List Pair
deriving Repr, DecidableEq

/-- `TreeNameUpgrade` (wal.pb.go). -/
structure Upgrade where
  name : Name
  renameFrom : Name
  delete : Bool
deriving Repr, DecidableEq

/-- `WALEntry` (wal.pb.go). -/
structure WALEntry where
  changesets : List NamedChangeSet := []
  upgrades : List Upgrade := []
deriving Repr, DecidableEq

/-- `Tree.ApplyChangeSet` (tree.go 131-139). -/
def Tree.applyPairs (t : Tree) (pairs : List Pair) : Tree :=
  pairs.foldl (fun t p => if p.delete then t.remove p.key else t.set p.key p.value) t

/-- `StoreInfo` (commit_info.pb.go): name, version and root hash. -/
structure StoreInfo where
  name : Name
  version : Nat
  hash : Bytes
deriving Repr, DecidableEq

/-- `MultiTree` (multitree.go 38-53): `version` and `infos` are `lastCommitInfo`. -/
structure MultiTree where
  initialVersion : Nat
  trees : List (Name × Tree)
  version : Nat
  infos : List StoreInfo
deriving Repr, DecidableEq

/-- `nextVersion` (multitree.go 424-429). -/
def nextVersion (v initialVersion : Nat) : Nat :=
  if v = 0 ∧ initialVersion > 1 then initialVersion else v + 1

/-- `walIndex` (multitree.go 432-437), `uint64` arithmetic. -/
def walIndex (v initialVersion : Nat) : Nat :=
  if initialVersion > 1 then (v + 2 ^ 64 - initialVersion + 1) % 2 ^ 64 else v

/-- `walVersion` (multitree.go 440-445). -/
def walVersion (index initialVersion : Nat) : Nat :=
  if initialVersion > 1 then index + initialVersion - 1 else index

/-- `NewWithInitialVersion` (tree.go 64-69). -/
def Tree.newWithInitialVersion (initialVersion : Nat) : Tree :=
  if initialVersion ≤ 1 then Tree.empty 0 else Tree.empty (initialVersion - 1)

/-- `Tree.setInitialVersion` (tree.go 104-115). -/
def Tree.setInitialVersion (t : Tree) (initialVersion : Nat) : Tree :=
  if t.version > 0 then t
  else if initialVersion < 1 then { t with version := 0 }
  else { t with version := initialVersion - 1 }

/-- Swap the `i`-th element with the last one and drop it (multitree.go 214-216). -/
def swapDelete (l : List (Name × Tree)) (i : Nat) : List (Name × Tree) :=
  match l.getLast? with
  | none => l
  | some x => (l.set i x).dropLast

/-- Give the `i`-th tree another name (multitree.go 225). -/
def renameAt (l : List (Name × Tree)) (i : Nat) (name : Name) : List (Name × Tree) :=
  l.modify i (fun p => (name, p.2))

/-- `slices.IndexFunc` by name (multitree.go 208-210, 219-221). -/
def indexOf (l : List (Name × Tree)) (name : Name) : Option Nat := l.findIdx? (fun p => p.1 == name)

/-- The loop body of `ApplyUpgrades` (multitree.go 205-231); `none` is the "unknown tree name" error.  `next` is
`nextVersion(t.Version(), t.initialVersion)`. -/
def upgradeStep (next : Nat) (l : List (Name × Tree)) (u : Upgrade) : Option (List (Name × Tree)) :=
  if u.delete then
    (indexOf l u.name).map (swapDelete l)
  else if u.renameFrom ≠ [] then
    (indexOf l u.renameFrom).map (fun i => renameAt l i u.name)
  else
    some (l ++ [(u.name, Tree.newWithInitialVersion next)])

namespace MultiTree

/-- `NewEmptyMultiTree` (multitree.go 55-62), also the tree `initEmptyDB` writes (db.go 965-976). -/
def empty (initialVersion : Nat) : MultiTree := { initialVersion, trees := [], version := 0, infos := [] }

/-- `TreeByName` (multitree.go 115-120). -/
def treeByName (t : MultiTree) (name : Name) : Option Tree := (t.trees.find? (fun p => p.1 == name)).map (·.2)

/-- `ApplyUpgrades` (multitree.go 198-245): the loop, the stable sort by name, and the conflict check.  `none` is an
error. -/
def applyUpgrades (t : MultiTree) (us : List Upgrade) : Option MultiTree :=
  if us = [] then some t
  else
    (us.foldlM (upgradeStep (nextVersion t.version t.initialVersion)) t.trees).bind fun l =>
      let l := StableSort.sortBy (fun a b => decide (a.1 ≤ b.1)) l
      if (l.map (·.1)).Nodup then some { t with trees := l } else none

/-- `ApplyChangeSet` (multitree.go 248-255); `none` is the "unknown tree name" error. -/
def applyChangeSet (t : MultiTree) (cs : NamedChangeSet) : Option MultiTree :=
  (indexOf t.trees cs.name).map fun i =>
    { t with trees := t.trees.modify i (fun p => (p.1, p.2.applyPairs cs.pairs)) }

/-- `ApplyChangeSets` (multitree.go 258-265): the tree afterwards, and whether it returned without error (the loop stops
at the first error, with the earlier sets applied). -/
def applyChangeSets (t : MultiTree) : List NamedChangeSet → MultiTree × Bool
  | [] => (t, true)
  | cs :: rest =>
    match t.applyChangeSet cs with
    | none => (t, false)
    | some t' => applyChangeSets t' rest

/-- `applyWALEntry` (multitree.go 190-195). -/
def applyWALEntry (t : MultiTree) (e : WALEntry) : Option MultiTree :=
  (t.applyUpgrades e.upgrades).bind fun t =>
    let (t, ok) := t.applyChangeSets e.changesets
    if ok then some t else none

variable (H : Bytes → Bytes)

/-- `UpdateCommitInfo` with `buildCommitInfo` (multitree.go 292-314). -/
def updateCommitInfo (t : MultiTree) : MultiTree :=
  { t with infos := t.trees.map fun p => { name := p.1, version := p.2.version, hash := p.2.rootHash H } }

/-- `SaveVersion` of every tree (multitree.go 276-280); `none` is the overflow error. -/
def saveTrees : List (Name × Tree) → Option (List (Name × Tree))
  | [] => some []
  | (n, t) :: rest => t.saveVersion.bind fun t' => (saveTrees rest).map fun r => (n, t') :: r

/-- `SaveVersion` (multitree.go 274-290); `none` is the overflow error. -/
def saveVersion (t : MultiTree) (updateInfo : Bool) : Option MultiTree :=
  (saveTrees t.trees).map fun l =>
    let t := { t with version := nextVersion t.version t.initialVersion, trees := l }
    if updateInfo then t.updateCommitInfo H else { t with infos := [] }

/-- What `LoadMultiTree` (multitree.go 64-112) gives for the snapshot directory `WriteSnapshot` (366-395) filled from
`t`.  Trees come back with the same version and node values (`C06_reopen…`, `Verif/MemIAVL/SnapshotProps.lean`) and in
name order (90); the metadata file returns version, commit info and initial version; `setInitialVersion` (146-153)
touches trees at version 0 only. -/
def load (t : MultiTree) : MultiTree :=
  if t.initialVersion > 1 then
    { t with trees := t.trees.map fun p => (p.1, p.2.setInitialVersion t.initialVersion) }
  else t

end MultiTree

/-- The write-ahead log library: `entries` have the indices `first, first+1, …`.  A new log has `first = 1`. -/
structure Wal where
  first : Nat := 1
  entries : List WALEntry := []
deriving Repr, DecidableEq

namespace Wal

/-- `wal.LastIndex` (0 for an empty log). -/
def last (w : Wal) : Nat := w.first + w.entries.length - 1

/-- `wal.Read`; `none` is "not found". -/
def read (w : Wal) (i : Nat) : Option WALEntry := if i < w.first then none else w.entries[i - w.first]?

/-- `wal.Write` and each entry of `wal.WriteBatch`: the index must be the next one. -/
def write (w : Wal) (i : Nat) (e : WALEntry) : Option Wal :=
  if i = w.last + 1 then some { w with entries := w.entries ++ [e] } else none

/-- `wal.TruncateFront(i)`: entry `i` becomes the first; `none` is "out of range". -/
def truncateFront (w : Wal) (i : Nat) : Option Wal :=
  if w.first ≤ i ∧ i ≤ w.last then some { first := i, entries := w.entries.drop (i - w.first) } else none

/-- `wal.TruncateBack(i)`: entry `i` becomes the last; `none` is "out of range". -/
def truncateBack (w : Wal) (i : Nat) : Option Wal :=
  if w.first ≤ i ∧ i ≤ w.last then some { w with entries := w.entries.take (i - w.first + 1) } else none

end Wal

namespace MultiTree
variable (H : Bytes → Bytes)

/-- The replay loop (multitree.go 342-357), `n` entries from index `i`. -/
def replay (w : Wal) (t : MultiTree) (i : Nat) : Nat → Option MultiTree
  | 0 => some t
  | n + 1 =>
    (w.read i).bind fun e => (t.applyWALEntry e).bind fun t => (t.saveVersion H false).bind fun t => replay w t (i + 1) n

/-- `CatchupWAL` (multitree.go 317-360); `endVersion = 0` means the latest version. -/
def catchupWAL (t : MultiTree) (w : Wal) (endVersion : Nat) : Option MultiTree :=
  let firstIndex := walIndex (nextVersion t.version t.initialVersion) t.initialVersion
  if firstIndex > w.last then some t
  else
    let endIndex := if endVersion = 0 then w.last else walIndex endVersion t.initialVersion
    if endIndex < firstIndex then none
    else if endIndex > w.last then none
    else (t.replay H w firstIndex (endIndex + 1 - firstIndex)).map (updateCommitInfo H)

end MultiTree

end MemIAVL
