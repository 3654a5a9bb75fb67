import Verif.MemIAVL.Hash
import Verif.Lib.Bytes
/-!
# memiavl: snapshot files

Models the snapshot writer and reader: `/repo/helios-chain/memiavl/snapshot.go` (61-169, 243-292, 295-348,
467-581), `persisted_node.go` and `layout_little_endian.go`.

Not modelled: the file system (mmap, flush, sync), context cancellation, the 12-byte metadata file beyond
the version number.  `uint32`/`uint64` fields are truncated as in Go by the width of their encodings, and index
arithmetic wraps modulo 2^32.  An out-of-range slice (Go panic) is `none`.
-/
namespace MemIAVL
open Varint Bytes

/-- `SizeHash`, `SizeNode`, `SizeLeaf` (persisted_node.go 9-27). -/
def sizeHash : Nat := 32
def sizeNode : Nat := 48
def sizeLeaf : Nat := 48

/-- The three data files. -/
structure Snap where
  nodes : Bytes
  leaves : Bytes
  kvs : Bytes
deriving Repr, DecidableEq

/-- `snapshotWriter` (snapshot.go 467-478); `kvsOffset` is the length of the kvs file written so far. -/
structure Writer where
  snap : Snap
  branchCounter : Nat
  leafCounter : Nat
  kvsOffset : Nat

/-- `newSnapshotWriter` (snapshot.go 480-487). -/
def Writer.new : Writer :=
  { snap := { nodes := [], leaves := [], kvs := [] }, branchCounter := 0, leafCounter := 0, kvsOffset := 0 }

/-- `writeLeaf` with `writeKeyValue` (snapshot.go 490-540). -/
def Writer.writeLeaf (w : Writer) (version : Nat) (key value hash : Bytes) : Writer :=
  { w with
    snap := { w.snap with
      leaves := w.snap.leaves ++ (le 4 version ++ le 4 key.length ++ le 8 w.kvsOffset ++ hash)
      kvs := w.snap.kvs ++ (le 4 key.length ++ key ++ le 4 value.length ++ value) }
    kvsOffset := w.kvsOffset + (4 + 4 + key.length + value.length)
    leafCounter := w.leafCounter + 1 }

/-- `writeBranch` (snapshot.go 542-559).  Bytes 2 and 3 are padding. -/
def Writer.writeBranch (w : Writer) (version size height preTrees keyLeaf : Nat) (hash : Bytes) : Writer :=
  { w with
    snap := { w.snap with
      nodes := w.snap.nodes ++
        (le 1 height ++ le 1 preTrees ++ [0, 0] ++ le 4 version ++ le 4 size ++ le 4 keyLeaf ++ hash) }
    branchCounter := w.branchCounter + 1 }

/-- `writeRecursive` (snapshot.go 563-581): depth-first post-order.  `preTrees` is computed before the children
are written; it is truncated to `uint8`. -/
def Writer.writeRecursive (H : Bytes → Bytes) (w : Writer) : Node → Writer
  | .leaf k v ver => w.writeLeaf ver k v ((Node.leaf k v ver).hash H)
  | .branch h s ver k l r =>
    let preTrees := (w.leafCounter - w.branchCounter) % 256
    let w1 := w.writeRecursive H l
    let keyLeaf := w1.leafCounter
    let w2 := w1.writeRecursive H r
    w2.writeBranch ver s h preTrees keyLeaf ((Node.branch h s ver k l r).hash H)

/-- `WriteSnapshotWithContext` (snapshot.go 355-366), the files only. -/
def Tree.writeSnapshot (H : Bytes → Bytes) (t : Tree) : Snap :=
  match t.root with
  | none => Writer.new.snap
  | some n => (Writer.new.writeRecursive H n).snap

/-- `PersistedNode` (persisted_node.go 45-49) without the snapshot pointer. -/
structure PRef where
  isLeaf : Bool
  index : Nat
deriving Repr, DecidableEq

namespace Snap

/-- `nodesLen`, `leavesLen` (snapshot.go 234-241). -/
def nodesLen (s : Snap) : Nat := s.nodes.length / sizeNode
def leavesLen (s : Snap) : Nat := s.leaves.length / sizeLeaf

/-- Validation and root selection of `OpenSnapshot` (snapshot.go 114-166): `none` is an error, `some none` an
empty snapshot. -/
def openRoot (s : Snap) : Option (Option PRef) :=
  if s.nodes.length % sizeNode ≠ 0 then none
  else if s.leaves.length % sizeLeaf ≠ 0 then none
  else if (0 < s.leavesLen ∧ s.nodesLen + 1 ≠ s.leavesLen) ∨ (s.leavesLen = 0 ∧ s.nodesLen ≠ 0) then none
  else if 0 < s.nodesLen then some (some { isLeaf := false, index := s.nodesLen - 1 })
  else if 0 < s.leavesLen then some (some { isLeaf := true, index := 0 })
  else some none

/-- `Nodes.Node` (layout_little_endian.go 19-22) and field access at an offset. -/
def nodeField (s : Snap) (i off len : Nat) : Option Bytes := do
  let rec_ ← slice s.nodes (i * sizeNode) sizeNode
  slice rec_ off len

/-- `Leaves.Leaf` (layout_little_endian.go 62-65) and field access at an offset. -/
def leafField (s : Snap) (i off len : Nat) : Option Bytes := do
  let rec_ ← slice s.leaves (i * sizeLeaf) sizeLeaf
  slice rec_ off len

/-- `NodeLayout` accessors (layout_little_endian.go 29-51). -/
def nodeHeight (s : Snap) (i : Nat) : Option Nat := (s.nodeField i 0 1).map unle
def nodePreTrees (s : Snap) (i : Nat) : Option Nat := (s.nodeField i 1 1).map unle
def nodeVersion (s : Snap) (i : Nat) : Option Nat := (s.nodeField i 4 4).map unle
def nodeSize (s : Snap) (i : Nat) : Option Nat := (s.nodeField i 8 4).map unle
def nodeKeyLeaf (s : Snap) (i : Nat) : Option Nat := (s.nodeField i 12 4).map unle
def nodeHash (s : Snap) (i : Nat) : Option Bytes := s.nodeField i 16 32

/-- `LeafLayout` accessors (layout_little_endian.go 71-85). -/
def leafVersion (s : Snap) (i : Nat) : Option Nat := (s.leafField i 0 4).map unle
def leafKeyLength (s : Snap) (i : Nat) : Option Nat := (s.leafField i 4 4).map unle
def leafKeyOffset (s : Snap) (i : Nat) : Option Nat := (s.leafField i 8 8).map unle
def leafHash (s : Snap) (i : Nat) : Option Bytes := s.leafField i 16 32

/-- `Snapshot.LeafKey` (snapshot.go 277-281). -/
def leafKey (s : Snap) (i : Nat) : Option Key := do
  let off ← s.leafKeyOffset i
  let len ← s.leafKeyLength i
  slice s.kvs (off + 4) len

/-- `Snapshot.LeafKeyValue` (snapshot.go 283-292). -/
def leafKeyValue (s : Snap) (i : Nat) : Option (Key × Val) := do
  let off ← s.leafKeyOffset i
  let len ← s.leafKeyLength i
  let key ← slice s.kvs (off + 4) len
  let vlen ← slice s.kvs (off + 4 + len) 4
  let value ← slice s.kvs (off + 4 + len + 4) (unle vlen)
  pure (key, value)

/-- `getStartLeaf`, `getEndLeaf`, `getLeftBranch` (persisted_node.go 225-248), on `uint32`. -/
def getStartLeaf (index size preTrees : Nat) : Nat := (index + 2 + 2 ^ 32 - size + preTrees) % 2 ^ 32
def getEndLeaf (index preTrees : Nat) : Nat := (index + preTrees + 1) % 2 ^ 32
def getLeftBranch (keyLeaf preTrees : Nat) : Nat := (keyLeaf + 2 ^ 32 + 2 ^ 32 - preTrees - 2) % 2 ^ 32

/-- `PersistedNode.Height`, `Version`, `Size`, `Key`, `Value`, `Hash` (persisted_node.go 61-101, 138-143). -/
def height (s : Snap) (p : PRef) : Option Nat := if p.isLeaf then some 0 else s.nodeHeight p.index
def version (s : Snap) (p : PRef) : Option Nat := if p.isLeaf then s.leafVersion p.index else s.nodeVersion p.index
def size (s : Snap) (p : PRef) : Option Nat := if p.isLeaf then some 1 else s.nodeSize p.index
def key (s : Snap) (p : PRef) : Option Key :=
  if p.isLeaf then s.leafKey p.index else (s.nodeKeyLeaf p.index).bind s.leafKey
def value (s : Snap) (p : PRef) : Option Val :=
  if p.isLeaf then (s.leafKeyValue p.index).map (·.2) else none
def hash (s : Snap) (p : PRef) : Option Bytes := if p.isLeaf then s.leafHash p.index else s.nodeHash p.index

/-- The choice made by `Left` (persisted_node.go 113-116). -/
def leftRef (startLeaf keyLeaf preTrees : Nat) : PRef :=
  if (startLeaf + 1) % 2 ^ 32 = keyLeaf then { isLeaf := true, index := startLeaf }
  else { isLeaf := false, index := getLeftBranch keyLeaf preTrees }

/-- `PersistedNode.Left` (persisted_node.go 104-117); `none` for a leaf (Go panics). -/
def left (s : Snap) (p : PRef) : Option PRef :=
  if p.isLeaf then none
  else do
    let preTrees ← s.nodePreTrees p.index
    let size ← s.nodeSize p.index
    let keyLeaf ← s.nodeKeyLeaf p.index
    pure (leftRef (getStartLeaf p.index size preTrees) keyLeaf preTrees)

/-- `PersistedNode.Right` (persisted_node.go 120-132). -/
def right (s : Snap) (p : PRef) : Option PRef :=
  if p.isLeaf then none
  else do
    let keyLeaf ← s.nodeKeyLeaf p.index
    let preTrees ← s.nodePreTrees p.index
    if keyLeaf = getEndLeaf p.index preTrees then pure { isLeaf := true, index := keyLeaf }
    else pure { isLeaf := false, index := (p.index + 2 ^ 32 - 1) % 2 ^ 32 }

end Snap

/-- The loop of Go's `sort.Search` on `[i, j)`; the predicate may panic (`none`). -/
def searchLoop (f : Nat → Option Bool) (i j : Nat) : Option Nat :=
  if i < j then
    let h := (i + j) / 2
    match f h with
    | none => none
    | some false => searchLoop f (h + 1) j
    | some true => searchLoop f i h
  else some i
termination_by j - i
decreasing_by all_goals omega

namespace Snap

/-- First leaf and number of leaves below a node (persisted_node.go 168-177). -/
def startCount (s : Snap) (p : PRef) : Option (Nat × Nat) :=
  if p.isLeaf then some (p.index, 1)
  else do
    let preTrees ← s.nodePreTrees p.index
    let count ← s.nodeSize p.index
    some (getStartLeaf p.index count preTrees, count)

/-- `PersistedNode.Get` (persisted_node.go 167-197): value (none: not found) and index. -/
def get (s : Snap) (p : PRef) (key : Key) : Option (Option Val × Nat) := do
  let (start, count) ← s.startCount p
  let i ← searchLoop (fun i => (s.leafKey ((start + i) % 2 ^ 32)).map (fun lk => decide (key ≤ lk))) 0 count
  let leaf := (i + start) % 2 ^ 32
  if leaf ≥ (start + count) % 2 ^ 32 then pure (none, i)
  else do
    let (nodeKey, value) ← s.leafKeyValue leaf
    if nodeKey ≠ key then pure (none, i) else pure (some value, i)

/-- The final range check of `GetByIndex` (persisted_node.go 212-215). -/
def leafUpTo (s : Snap) (i endLeaf : Nat) : Option (Option (Key × Val)) :=
  if i > endLeaf then some none else (s.leafKeyValue i).map some

/-- `PersistedNode.GetByIndex` (persisted_node.go 199-216). -/
def getByIndex (s : Snap) (p : PRef) (leafIndex : Nat) : Option (Option (Key × Val)) :=
  if p.isLeaf then
    if leafIndex ≠ 0 then some none else (s.leafKeyValue p.index).map some
  else do
    let preTrees ← s.nodePreTrees p.index
    let size ← s.nodeSize p.index
    s.leafUpTo ((getStartLeaf p.index size preTrees + leafIndex) % 2 ^ 32) (getEndLeaf p.index preTrees)

end Snap
end MemIAVL
