/-!
# memiavl: the in-memory IAVL+ tree

Models `/repo/helios-chain/memiavl/{node.go,mem_node.go,tree.go}`.

Simplifications (for the whole file):
* nodes are immutable values: in-place mutation versus clone (`Mutate`) is modelled separately in
  `Verif/MemIAVL/Heap.lean`;
* `uint8` heights, `int64` sizes and `uint32` versions/indices are `Nat`;
* cached hashes are not part of the node (see `Verif/MemIAVL/Hash.lean`);
* a Go `nil` value (the "not found" answer) is `none`; stored values are never nil (`Tree.set`,
  tree.go 141-145, turns nil into the empty slice).
-/
namespace MemIAVL

/-- Byte-string keys.  Go's `bytes.Compare` is the lexicographic order on them, which is the core
`<` on `List UInt8`. -/
abbrev Key := List UInt8
/-- Byte-string values. -/
abbrev Val := List UInt8

/-- `MemNode` (mem_node.go 9-19).  `IsLeaf` is `height == 0` in Go; here it is the constructor.
The `height` and `size` fields of branches are stored, not computed. -/
inductive Node where
  | leaf (key : Key) (value : Val) (version : Nat)
  | branch (height size version : Nat) (key : Key) (left right : Node)
deriving Repr, DecidableEq

namespace Node

/-- mem_node.go 29-31. -/
def height : Node → Nat
  | leaf .. => 0
  | branch h .. => h

/-- mem_node.go 37-39 (a leaf is created with `size: 1`, line 25). -/
def size : Node → Nat
  | leaf .. => 1
  | branch _ s .. => s

/-- mem_node.go 41-43. -/
def version : Node → Nat
  | leaf _ _ v => v
  | branch _ _ v .. => v

/-- mem_node.go 45-47. -/
def key : Node → Key
  | leaf k .. => k
  | branch _ _ _ k .. => k

/-- A branch after `updateHeightSize` (mem_node.go 90-93; `maxUInt8` 213-218). -/
def mk (version : Nat) (key : Key) (l r : Node) : Node :=
  branch (max l.height r.height + 1) (l.size + r.size) version key l r

/-- `rotateRight` (mem_node.go 110-117).  The left child is mutated to `version`; the node itself keeps
the version its caller gave it.  On a node whose left child is a leaf the Go code would build a
nil child; unreachable (the left child has height ≥ 2), the model returns the node unchanged. -/
def rotateRight (version : Nat) : Node → Node
  | branch _ _ ver k (branch _ _ _ lk ll lr) r => mk version lk ll (mk ver k lr r)
  | n => n

/-- `rotateLeft` (mem_node.go 126-133). -/
def rotateLeft (version : Nat) : Node → Node
  | branch _ _ ver k l (branch _ _ _ rk rl rr) => mk version rk (mk ver k l rl) rr
  | n => n

/-- `calcBalance` (mem_node.go 95-101). -/
def calcBalance : Node → Int
  | leaf .. => 0
  | branch _ _ _ _ l r => (l.height : Int) - r.height

/-- `node.Mutate(version, _)` as a value: same node with the new version (mem_node.go 62-71). -/
def setVersion (version : Nat) : Node → Node
  | leaf k v _ => leaf k v version
  | branch h s _ k l r => branch h s version k l r

/-- `reBalance` (mem_node.go 136-161). -/
def reBalance (version : Nat) : Node → Node
  | leaf k v ver => leaf k v ver
  | n@(branch h s ver k l r) =>
    if n.calcBalance > 1 then
      if l.calcBalance ≥ 0 then rotateRight version n
      else rotateRight version (branch h s ver k (rotateLeft version (l.setVersion version)) r)
    else if n.calcBalance < -1 then
      if r.calcBalance ≤ 0 then rotateLeft version n
      else rotateLeft version (branch h s ver k l (rotateRight version (r.setVersion version)))
    else n

/-- `setRecursive` on a non-nil node (node.go 42-89). -/
def setRec (key : Key) (value : Val) (version : Nat) : Node → Node × Bool
  | leaf k v ver =>
    if key < k then (branch 1 2 version k (leaf key value version) (leaf k v ver), false)
    else if k < key then (branch 1 2 version key (leaf k v ver) (leaf key value version), false)
    else (leaf k value version, true)
  | branch h s _ k l r =>
    if key < k then
      let (l', updated) := setRec key value version l
      if updated then (branch h s version k l' r, updated)
      else (reBalance version (mk version k l' r), updated)
    else
      let (r', updated) := setRec key value version r
      if updated then (branch h s version k l r', updated)
      else (reBalance version (mk version k l r'), updated)

/-- `removeRecursive` on a non-nil node (node.go 101-136): removed value, remaining node, new key. -/
def removeRec (key : Key) (version : Nat) : Node → Option Val × Option Node × Option Key
  | leaf k v ver =>
    if k = key then (some v, none, none) else (none, some (leaf k v ver), none)
  | branch h s ver k l r =>
    if key < k then
      match removeRec key version l with
      | (none, _, _) => (none, some (branch h s ver k l r), none)
      | (some v, none, _) => (some v, some r, some k)
      | (some v, some l', newKey) => (some v, some (reBalance version (mk version k l' r)), newKey)
    else
      match removeRec key version r with
      | (none, _, _) => (none, some (branch h s ver k l r), none)
      | (some v, none, _) => (some v, some l, none)
      | (some v, some r', newKey) =>
        (some v, some (reBalance version (mk version (newKey.getD k) l r')), none)

/-- `MemNode.Get` (mem_node.go 163-181): value and index. -/
def get (key : Key) : Node → Option Val × Nat
  | leaf k v _ =>
    if k < key then (none, 1) else if key < k then (none, 0) else (some v, 0)
  | branch _ s _ k l r =>
    if key < k then get key l
    else
      let (value, index) := get key r
      (value, index + s - r.size)

/-- `MemNode.GetByIndex` (mem_node.go 183-199). -/
def getByIndex (index : Nat) : Node → Option (Key × Val)
  | leaf k v _ => if index = 0 then some (k, v) else none
  | branch _ _ _ _ l r =>
    if index < l.size then getByIndex index l else getByIndex (index - l.size) r

end Node

/-- `Tree` (tree.go 22-33) without snapshot handle, cache and `cowVersion`
(cache: `Verif/MemIAVL/Cache.lean`; copy-on-write: `Verif/MemIAVL/Heap.lean`). -/
structure Tree where
  version : Nat
  root : Option Node
deriving Repr, DecidableEq

namespace Tree

/-- `NewEmptyTree` (tree.go 44-55); the overflow panic is not modelled. -/
def empty (version : Nat) : Tree := { version, root := none }

/-- `Tree.set` (tree.go 141-150), with the `node == nil` case of `setRecursive` (node.go 38-40). -/
def set (t : Tree) (key : Key) (value : Val) : Tree :=
  { t with root := match t.root with
      | none => some (.leaf key value (t.version + 1))
      | some n => some (n.setRec key value (t.version + 1)).1 }

/-- `Tree.remove` (tree.go 152-157). -/
def remove (t : Tree) (key : Key) : Tree :=
  { t with root := match t.root with
      | none => none
      | some n => (n.removeRec key (t.version + 1)).2.1 }

/-- `Tree.SaveVersion` (tree.go 160-172); the `MaxUint32` overflow error is `none`. -/
def saveVersion (t : Tree) : Option Tree :=
  if t.version = 2 ^ 32 - 1 then none else some { t with version := t.version + 1 }

/-- `Tree.GetWithIndex` (tree.go 188-198). -/
def getWithIndex (t : Tree) (key : Key) : Nat × Option Val :=
  match t.root with
  | none => (0, none)
  | some n => let (v, i) := n.get key; (i, v)

/-- `Tree.Get` without the cache (tree.go 216-232). -/
def get (t : Tree) (key : Key) : Option Val := (t.getWithIndex key).2

/-- `Tree.GetByIndex` (tree.go 200-214). -/
def getByIndex (t : Tree) (index : Nat) : Option (Key × Val) :=
  match t.root with
  | none => none
  | some n => n.getByIndex index

/-- Number of stored pairs as reported by the root. -/
def size (t : Tree) : Nat :=
  match t.root with
  | none => 0
  | some n => n.size

end Tree

/-- One entry of a `ChangeSet` (tree.go 131-139) or a `SaveVersion` call. -/
inductive Op where
  | set (key : Key) (value : Val)
  | remove (key : Key)
  | save
deriving Repr, DecidableEq

/-- One step of a tree history: `ApplyChangeSet`'s loop body (tree.go 131-139) and `SaveVersion`
(a `SaveVersion` that fails leaves the tree as it is). -/
def Tree.step (t : Tree) : Op → Tree
  | .set k v => t.set k v
  | .remove k => t.remove k
  | .save => t.saveVersion.getD t

/-- A whole history. -/
def Tree.run (t : Tree) (ops : List Op) : Tree := ops.foldl Tree.step t

end MemIAVL
