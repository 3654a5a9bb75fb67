import Verif.MemIAVL.Hash
/-!
# memiavl: nodes in memory, in-place mutation, copy-on-write and cached hashes

Models `/repo/helios-chain/memiavl/{mem_node.go,node.go,tree.go}` with explicit memory: `*MemNode` is an address into
a heap of cells, `Mutate` clones or writes in place depending on the copy-on-write watermark, and node hashes are cached
in the cells.  Several trees may share cells (after `Tree.Copy`).

Simplifications:
* a `PersistedNode` is an immutable subtree value (`Verif/MemIAVL/SnapshotProps.lean` shows that reading it
  gives that value); its `Get` is the tree `get` (C06_snapshot_queries) and its hash the stored hash;
* Go recursion over the heap gets a recursion bound (`fuel`), taken one more than the stored height of the start node;
  running out of it, or following a nil pointer, is `none`;
* goroutine interleaving inside one operation is not modelled: operations of different trees are atomic.
-/
namespace MemIAVL
open Varint

/-- A `Node` interface value: pointer to a `MemNode`, or a `PersistedNode`. -/
inductive Ref where
  | ptr (a : Nat)
  | pers (n : Node)
deriving Repr, DecidableEq

/-- `MemNode` (mem_node.go 9-19); nil children are `none`. -/
structure Cell where
  height : Nat
  size : Nat
  version : Nat
  key : Key
  value : Val
  left : Option Ref
  right : Option Ref
  hash : Option Bytes
deriving Repr, DecidableEq

/-- Memory: addresses are positions, allocation appends. -/
abbrev Heap := List Cell

/-- The fields a persisted node shows through the `Node` interface (persisted_node.go 61-132), and the cell
`PersistedNode.Mutate` builds from them (persisted_node.go 145-165). -/
def Node.asCell : Node → Cell
  | .leaf k v ver => { height := 0, size := 1, version := ver, key := k, value := v, left := none, right := none, hash := none }
  | .branch h s ver k l r =>
    { height := h, size := s, version := ver, key := k, value := [], left := some (.pers l), right := some (.pers r),
      hash := none }

namespace Heap

/-- Field access through the `Node` interface. -/
def view (h : Heap) : Ref → Option Cell
  | .ptr a => h[a]?
  | .pers n => some n.asCell

/-- Assignment to fields of a `MemNode`. -/
def upd (h : Heap) (a : Nat) (f : Cell → Cell) : Heap := h.modify a f

/-- `Mutate` (mem_node.go 61-71, persisted_node.go 145-165). -/
def mutate (h : Heap) (version cow : Nat) : Ref → Option (Heap × Nat)
  | .ptr a =>
    match h[a]? with
    | none => none
    | some c =>
      if c.version ≤ cow then some (h ++ [{ c with version, hash := none }], h.length)
      else some (h.upd a (fun c => { c with version, hash := none }), a)
  | .pers n => some (h ++ [{ n.asCell with version }], h.length)

/-- `updateHeightSize` (mem_node.go 90-93). -/
def updateHeightSize (h : Heap) (a : Nat) : Option Heap := do
  let c ← h[a]?
  let l ← h.view (← c.left)
  let r ← h.view (← c.right)
  pure (h.upd a (fun c => { c with height := max l.height r.height + 1, size := l.size + r.size }))

/-- `rotateRight` (mem_node.go 110-117). -/
def rotateRight (h : Heap) (version cow : Nat) (a : Nat) : Option (Heap × Nat) := do
  let c ← h[a]?
  let l ← c.left
  let (h, newSelf) ← h.mutate version cow l
  let lc ← h.view l
  let h := h.upd a (fun c => { c with left := lc.right })
  let h := h.upd newSelf (fun c => { c with right := some (.ptr a) })
  let h ← h.updateHeightSize a
  let h ← h.updateHeightSize newSelf
  pure (h, newSelf)

/-- `rotateLeft` (mem_node.go 126-133). -/
def rotateLeft (h : Heap) (version cow : Nat) (a : Nat) : Option (Heap × Nat) := do
  let c ← h[a]?
  let r ← c.right
  let (h, newSelf) ← h.mutate version cow r
  let rc ← h.view r
  let h := h.upd a (fun c => { c with right := rc.left })
  let h := h.upd newSelf (fun c => { c with left := some (.ptr a) })
  let h ← h.updateHeightSize a
  let h ← h.updateHeightSize newSelf
  pure (h, newSelf)

/-- `calcBalance` (mem_node.go 95-101). -/
def calcBalance (h : Heap) (r : Ref) : Option Int := do
  let c ← h.view r
  let l ← h.view (← c.left)
  let r ← h.view (← c.right)
  pure ((l.height : Int) - r.height)

/-- `reBalance` (mem_node.go 136-161). -/
def reBalance (h : Heap) (version cow : Nat) (a : Nat) : Option (Heap × Nat) := do
  let balance ← h.calcBalance (.ptr a)
  let c ← h[a]?
  if balance > 1 then
    let l ← c.left
    let leftBalance ← h.calcBalance l
    if leftBalance ≥ 0 then h.rotateRight version cow a
    else do
      let (h, m) ← h.mutate version cow l
      let (h, m) ← h.rotateLeft version cow m
      (h.upd a (fun c => { c with left := some (.ptr m) })).rotateRight version cow a
  else if balance < -1 then
    let r ← c.right
    let rightBalance ← h.calcBalance r
    if rightBalance ≤ 0 then h.rotateLeft version cow a
    else do
      let (h, m) ← h.mutate version cow r
      let (h, m) ← h.rotateRight version cow m
      (h.upd a (fun c => { c with right := some (.ptr m) })).rotateLeft version cow a
  else pure (h, a)

/-- `newLeafNode` (mem_node.go 23-27). -/
def leafCell (key : Key) (value : Val) (version : Nat) : Cell :=
  { height := 0, size := 1, version, key, value, left := none, right := none, hash := none }

/-- A new branch over two leaves (node.go 46-53, 55-62). -/
def branchCell (version : Nat) (key : Key) (l r : Ref) : Cell :=
  { height := 1, size := 2, version, key, value := [], left := some l, right := some r, hash := none }

/-- `setRecursive` on a non-nil node (node.go 37-90). -/
def setRec (key : Key) (value : Val) (version cow : Nat) : Nat → Heap → Ref → Option (Heap × Nat × Bool)
  | 0, _, _ => none
  | fuel + 1, h, ref => do
    let c ← h.view ref
    if c.height = 0 then
      if key < c.key then
        let a := h.length
        let h := h ++ [leafCell key value version]
        pure (h ++ [branchCell version c.key (.ptr a) ref], h.length, false)
      else if c.key < key then
        let a := h.length
        let h := h ++ [leafCell key value version]
        pure (h ++ [branchCell version key ref (.ptr a)], h.length, false)
      else
        let (h, a) ← h.mutate version cow ref
        pure (h.upd a (fun c => { c with value }), a, true)
    else if key < c.key then
      let (h, child, updated) ← setRec key value version cow fuel h (← c.left)
      let (h, a) ← h.mutate version cow ref
      let h := h.upd a (fun c => { c with left := some (.ptr child) })
      if updated then pure (h, a, updated)
      else do
        let h ← h.updateHeightSize a
        let (h, a) ← h.reBalance version cow a
        pure (h, a, updated)
    else
      let (h, child, updated) ← setRec key value version cow fuel h (← c.right)
      let (h, a) ← h.mutate version cow ref
      let h := h.upd a (fun c => { c with right := some (.ptr child) })
      if updated then pure (h, a, updated)
      else do
        let h ← h.updateHeightSize a
        let (h, a) ← h.reBalance version cow a
        pure (h, a, updated)

/-- `removeRecursive` on a non-nil node (node.go 96-137): value, remaining node, new key. -/
def removeRec (key : Key) (version cow : Nat) : Nat → Heap → Ref → Option (Heap × Option Val × Option Ref × Option Key)
  | 0, _, _ => none
  | fuel + 1, h, ref => do
    let c ← h.view ref
    if c.height = 0 then
      if c.key = key then pure (h, some c.value, none, none) else pure (h, none, some ref, none)
    else if key < c.key then
      match ← removeRec key version cow fuel h (← c.left) with
      | (h, none, _, _) => pure (h, none, some ref, none)
      | (h, some v, none, _) => pure (h, some v, some (← c.right), some c.key)
      | (h, some v, some newLeft, newKey) =>
        let (h, a) ← h.mutate version cow ref
        let h := h.upd a (fun c => { c with left := some newLeft })
        let h ← h.updateHeightSize a
        let (h, a) ← h.reBalance version cow a
        pure (h, some v, some (.ptr a), newKey)
    else
      match ← removeRec key version cow fuel h (← c.right) with
      | (h, none, _, _) => pure (h, none, some ref, none)
      | (h, some v, none, _) => pure (h, some v, some (← c.left), none)
      | (h, some v, some newRight, newKey) =>
        let (h, a) ← h.mutate version cow ref
        let h := h.upd a (fun c => { c with right := some newRight, key := newKey.getD c.key })
        let h ← h.updateHeightSize a
        let (h, a) ← h.reBalance version cow a
        pure (h, some v, some (.ptr a), none)

/-- `MemNode.Get` (mem_node.go 163-181). -/
def get (key : Key) : Nat → Heap → Ref → Option (Option Val × Nat)
  | 0, _, _ => none
  | _ + 1, _, .pers n => some (n.get key)
  | fuel + 1, h, .ptr a => do
    let c ← h[a]?
    if c.height = 0 then
      if c.key < key then pure (none, 1) else if key < c.key then pure (none, 0) else pure (some c.value, 0)
    else if key < c.key then get key fuel h (← c.left)
    else
      let right ← c.right
      let (value, index) ← get key fuel h right
      let rc ← h.view right
      pure (value, index + c.size - rc.size)

/-- `MemNode.Hash` with its cache (mem_node.go 79-88) and `HashNode` (node.go 141-196). -/
def hash (H : Bytes → Bytes) : Nat → Heap → Ref → Option (Heap × Bytes)
  | 0, _, _ => none
  | _ + 1, h, .pers n => some (h, n.hash H)
  | fuel + 1, h, .ptr a => do
    let c ← h[a]?
    match c.hash with
    | some x => pure (h, x)
    | none =>
      if c.height = 0 then
        let x := H (putVarint 0 ++ putVarint c.size ++ putVarint c.version ++ encodeBytes c.key ++ encodeBytes (H c.value))
        pure (h.upd a (fun c => { c with hash := some x }), x)
      else
        let (h, lh) ← hash H fuel h (← c.left)
        let (h, rh) ← hash H fuel h (← c.right)
        let x := H (putVarint c.height ++ putVarint c.size ++ putVarint c.version ++ encodeBytes lh ++ encodeBytes rh)
        pure (h.upd a (fun c => { c with hash := some x }), x)

/-- The tree value that any walk from the reference (iterators, export, snapshot writer, proofs) sees. -/
def read : Nat → Heap → Ref → Option Node
  | 0, _, _ => none
  | _ + 1, _, .pers n => some n
  | fuel + 1, h, .ptr a => do
    let c ← h[a]?
    if c.height = 0 then pure (.leaf c.key c.value c.version)
    else
      let l ← read fuel h (← c.left)
      let r ← read fuel h (← c.right)
      pure (.branch c.height c.size c.version c.key l r)

end Heap

/-- `Tree` (tree.go 22-33) over the heap.  `dirty` is a ghost flag: there were writes since the last `SaveVersion`. -/
structure HTree where
  version : Nat
  cow : Nat
  root : Option Ref
  dirty : Bool
deriving Repr, DecidableEq

/-- All trees sharing one memory. -/
structure HSys where
  heap : Heap
  trees : List HTree
deriving Repr, DecidableEq

/-- Operations on the `i`-th tree. -/
inductive HOp where
  | set (i : Nat) (key : Key) (value : Val)
  | remove (i : Nat) (key : Key)
  | save (i : Nat)
  | rootHash (i : Nat)
  | copy (i : Nat)
deriving Repr, DecidableEq

namespace HSys

def fuelOf (h : Heap) (r : Ref) : Nat := ((h.view r).map (·.height)).getD 0 + 1

/-- `Tree.set` (tree.go 141-150). -/
def set (s : HSys) (i : Nat) (key : Key) (value : Val) : Option HSys := do
  let t ← s.trees[i]?
  match t.root with
  | none =>
    pure { heap := s.heap ++ [Heap.leafCell key value (t.version + 1)]
           trees := s.trees.set i { t with root := some (.ptr s.heap.length), dirty := true } }
  | some r =>
    let (h, a, _) ← Heap.setRec key value (t.version + 1) t.cow (fuelOf s.heap r) s.heap r
    pure { heap := h, trees := s.trees.set i { t with root := some (.ptr a), dirty := true } }

/-- `Tree.remove` (tree.go 152-157). -/
def remove (s : HSys) (i : Nat) (key : Key) : Option HSys := do
  let t ← s.trees[i]?
  match t.root with
  | none => pure { s with trees := s.trees.set i { t with dirty := true } }
  | some r =>
    let (h, _, root, _) ← Heap.removeRec key (t.version + 1) t.cow (fuelOf s.heap r) s.heap r
    pure { heap := h, trees := s.trees.set i { t with root, dirty := true } }

/-- `Tree.SaveVersion(false)` (tree.go 160-172); on overflow the tree is unchanged. -/
def save (s : HSys) (i : Nat) : Option HSys := do
  let t ← s.trees[i]?
  if t.version = 2 ^ 32 - 1 then pure s
  else pure { s with trees := s.trees.set i { t with version := t.version + 1, dirty := false } }

/-- `Tree.RootHash` (tree.go 181-186): result and the memory with filled caches. -/
def rootHash (H : Bytes → Bytes) (s : HSys) (i : Nat) : Option (HSys × Bytes) := do
  let t ← s.trees[i]?
  match t.root with
  | none => pure (s, H [])
  | some r =>
    let (h, x) ← Heap.hash H (fuelOf s.heap r) s.heap r
    pure ({ s with heap := h }, x)

/-- `Tree.Copy` (tree.go 119-128): the copy is appended to the list of trees. -/
def copyRaw (s : HSys) (i : Nat) : Option HSys := do
  let t ← s.trees[i]?
  let t' := match t.root with
    | some (.ptr _) => { t with cow := t.version }
    | _ => t
  pure { s with trees := s.trees.set i t' ++ [t'] }

/-- `Tree.Copy` as the property allows it: only on a tree without unsaved writes; otherwise `none`. -/
def copy (s : HSys) (i : Nat) : Option HSys := do
  let t ← s.trees[i]?
  if t.dirty then none else s.copyRaw i

/-- `Tree.Get` without the LRU cache (tree.go 188-198). -/
def get (s : HSys) (i : Nat) (key : Key) : Option (Option Val × Nat) := do
  let t ← s.trees[i]?
  match t.root with
  | none => pure (none, 0)
  | some r => Heap.get key (fuelOf s.heap r) s.heap r

/-- The whole tree as seen by a walk from its root. -/
def readTree (s : HSys) (i : Nat) : Option Tree := do
  let t ← s.trees[i]?
  match t.root with
  | none => pure { version := t.version, root := none }
  | some r =>
    let n ← Heap.read (fuelOf s.heap r) s.heap r
    pure { version := t.version, root := some n }

/-- Trees as `OpenDB` builds them: empty (`NewEmptyTree`, tree.go 44-55) or over a snapshot
(`NewFromSnapshot`, tree.go 71-85), copy-on-write watermark 0, no cells in memory yet. -/
def load (ts : List Tree) : HSys :=
  { heap := [], trees := ts.map fun t => { version := t.version, cow := 0, root := t.root.map .pers, dirty := false } }

/-- One operation. -/
def step (H : Bytes → Bytes) (s : HSys) : HOp → Option HSys
  | .set i k v => s.set i k v
  | .remove i k => s.remove i k
  | .save i => s.save i
  | .rootHash i => (s.rootHash H i).map (·.1)
  | .copy i => s.copy i

/-- A schedule of operations. -/
def run (H : Bytes → Bytes) (s : HSys) : List HOp → Option HSys
  | [] => some s
  | op :: ops => do (← s.step H op).run H ops

end HSys
end MemIAVL
