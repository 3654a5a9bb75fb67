import Verif.MemIAVL.Snapshot
/-!
# memiavl: exporting and importing the node stream

Models `ScanPostOrder` and `Export` (`/repo/helios-chain/memiavl/tree.go` 242-289), the snapshot export
(`snapshot.go` 299-348) and the importer (`import.go` 131-220).

Not modelled: channels, goroutines and cancellation (the stream is a list), the file system, and the directory
handling of the multi-tree importer.  An out-of-range index (Go panic) is `none`.
-/
namespace MemIAVL
open Varint Bytes

/-- `ExportNode` (types.go): one item of the stream.  Heights are `int8` in Go; a balanced tree has height < 64
below 2^32 leaves, so the conversions are exact.  A branch has a nil value, modelled as `none`. -/
structure ExportNode where
  height : Nat
  version : Nat
  key : Key
  value : Option Val
deriving Repr, DecidableEq

/-- The `ExportNode` of a node (tree.go 281-286). -/
def Node.exported : Node → ExportNode
  | .leaf k v ver => { height := 0, version := ver, key := k, value := some v }
  | .branch h _ ver k _ _ => { height := h, version := ver, key := k, value := none }

/-- Termination measure of the scan: number of loop iterations an entry still causes. -/
def Node.scanCost : Node → Nat
  | .leaf .. => 1
  | .branch _ _ _ _ l r => l.scanCost + r.scanCost + 2

def entryCost : Node × Bool → Nat
  | (_, true) => 1
  | (n, false) => n.scanCost

/-- The loop of `ScanPostOrder` (tree.go 251-263); the top of the stack is the head of the list.  The
second component is `expanded`. -/
def scanPostOrder : List (Node × Bool) → List Node
  | [] => []
  | (.leaf k v ver, _) :: st => .leaf k v ver :: scanPostOrder st
  | (.branch h s ver k l r, true) :: st => .branch h s ver k l r :: scanPostOrder st
  | (.branch h s ver k l r, false) :: st =>
    scanPostOrder ((l, false) :: (r, false) :: (.branch h s ver k l r, true) :: st)
termination_by st => (st.map entryCost).sum
decreasing_by
  · rename_i b; cases b <;> simp [entryCost, Node.scanCost]
  · simp [entryCost]
  · simp [entryCost, Node.scanCost]; omega

/-- `Tree.Export` by traversal (tree.go 278-288). -/
def Tree.export (t : Tree) : List ExportNode :=
  match t.root with
  | none => []
  | some n => (scanPostOrder [(n, false)]).map Node.exported

namespace Snap

/-- `Snapshot.KeyValue` (snapshot.go 266-275). -/
def keyValue (s : Snap) (off : Nat) : Option (Key × Val) := do
  let klen ← slice s.kvs off 4
  let key ← slice s.kvs (off + 4) (unle klen)
  let vlen ← slice s.kvs (off + 4 + unle klen) 4
  let value ← slice s.kvs (off + 4 + unle klen + 4) (unle vlen)
  pure (key, value)

/-- One exported leaf (snapshot.go 322-329). -/
def exportLeaf (s : Snap) (j : Nat) : Option ExportNode := do
  let off ← s.leafKeyOffset j
  let (key, value) ← s.keyValue off
  let ver ← s.leafVersion j
  pure { height := 0, version := ver, key, value := some value }

/-- The inner loop (snapshot.go 320-336): `count` more leaves from index `j`. -/
def exportLeaves (s : Snap) (j : Nat) : Nat → Option (List ExportNode)
  | 0 => some []
  | count + 1 => do
    let e ← s.exportLeaf j
    let es ← s.exportLeaves (j + 1) count
    pure (e :: es)

/-- The outer loop (snapshot.go 317-347), `count` more branches from index `i`.  The inner loop runs
`preTrees + 2 - pendingTrees` times. -/
def exportBranches (s : Snap) (i j pending : Nat) : Nat → Option (List ExportNode)
  | 0 => some []
  | count + 1 => do
    let pre ← s.nodePreTrees i
    let more := pre + 2 - pending
    let leaves ← s.exportLeaves j more
    let h ← s.nodeHeight i
    let ver ← s.nodeVersion i
    let kl ← s.nodeKeyLeaf i
    let key ← s.leafKey kl
    let rest ← s.exportBranches (i + 1) (j + more) (pending + more - 1) count
    pure (leaves ++ { height := h, version := ver, key, value := none } :: rest)

/-- `Snapshot.export` (snapshot.go 299-348). -/
def «export» (s : Snap) : Option (List ExportNode) :=
  if s.leavesLen = 0 then some []
  else if s.leavesLen = 1 then do
    let ver ← s.leafVersion 0
    let (key, value) ← s.leafKeyValue 0
    pure [{ height := 0, version := ver, key, value := some value }]
  else s.exportBranches 0 0 0 s.nodesLen

end Snap

/-- What later code reads of a pending node: size and (cached) hash (import.go 192-207). -/
structure Pending where
  size : Nat
  hash : Bytes
deriving Repr, DecidableEq

/-- `importer` (import.go 159-166). -/
structure Importer where
  w : Writer
  leavesStack : List Nat
  nodeStack : List Pending

/-- `importer.Add` (import.go 168-220).  `none` is a panic (fewer than two pending nodes) or the overflow error.  The
top of a stack is the last element. -/
def Importer.add (H : Bytes → Bytes) (i : Importer) (n : ExportNode) : Option Importer :=
  if n.version ≥ 2 ^ 32 then none
  else if n.height = 0 then
    let value := n.value.getD []
    let hash := (Node.leaf n.key value n.version).hash H
    let w := i.w.writeLeaf n.version n.key value hash
    some { w, leavesStack := i.leavesStack ++ [w.leafCounter], nodeStack := i.nodeStack ++ [{ size := 1, hash }] }
  else if i.leavesStack.length < 2 ∨ i.nodeStack.length < 2 then none
  else do
    let keyLeaf ← i.leavesStack[i.leavesStack.length - 2]?
    let l ← i.nodeStack[i.nodeStack.length - 2]?
    let r ← i.nodeStack[i.nodeStack.length - 1]?
    let size := l.size + r.size
    let hash := H (putVarint n.height ++ putVarint size ++ putVarint n.version ++ encodeBytes l.hash ++ encodeBytes r.hash)
    let preTrees := (i.nodeStack.length - 2) % 256
    let w := i.w.writeBranch n.version size n.height preTrees keyLeaf hash
    pure { w
           leavesStack := i.leavesStack.take (i.leavesStack.length - 2) ++ [w.leafCounter]
           nodeStack := i.nodeStack.take (i.nodeStack.length - 2) ++ [{ size, hash }] }

/-- The loop over the stream (import.go 142-146). -/
def Importer.addAll (H : Bytes → Bytes) (i : Importer) : List ExportNode → Option Importer
  | [] => some i
  | n :: ns => do (← i.add H n).addAll H ns

/-- `doImport` (import.go 132-157): the written files; `none` is an error. -/
def doImport (H : Bytes → Bytes) (ns : List ExportNode) : Option Snap := do
  let i ← Importer.addAll H { w := Writer.new, leavesStack := [], nodeStack := [] } ns
  if i.leavesStack.length ≤ 1 then some i.w.snap else none

end MemIAVL
