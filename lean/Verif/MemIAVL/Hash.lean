import Verif.MemIAVL.Spec
import Verif.Lib.Varint
/-!
# memiavl: node hashes and existence proofs

Models `writeHashBytes`/`HashNode` (`/repo/helios-chain/memiavl/node.go` 141-196), `RootHash`
(`tree.go` 181-186) and `proof.go`.  SHA-256 is a parameter `H`.  Hashes are computed, not cached
(`MemNode.Hash` caches, mem_node.go 79-88; `Mutate` clears the cache).
-/
namespace MemIAVL
open Varint

/-- Byte strings. -/
abbrev Bytes := List UInt8

variable (H : Bytes → Bytes)

/-- `HashNode` (node.go 187-196) of `writeHashBytes` (node.go 141-184). -/
def Node.hash : Node → Bytes
  | .leaf k v ver =>
    H (putVarint 0 ++ putVarint 1 ++ putVarint ver ++ encodeBytes k ++ encodeBytes (H v))
  | .branch h s ver _ l r =>
    H (putVarint h ++ putVarint s ++ putVarint ver ++ encodeBytes l.hash ++ encodeBytes r.hash)

/-- `writeHashBytes` (node.go 141-184): the bytes whose SHA-256 is the node hash. -/
def Node.preimage : Node → Bytes
  | .leaf k v ver =>
    putVarint 0 ++ putVarint 1 ++ putVarint ver ++ encodeBytes k ++ encodeBytes (H v)
  | .branch h s ver _ l r =>
    putVarint h ++ putVarint s ++ putVarint ver ++ encodeBytes (l.hash H) ++ encodeBytes (r.hash H)

/-- `Tree.RootHash` (tree.go 181-186); `emptyHash` is the hash of the empty string (tree.go 12). -/
def Tree.rootHash (t : Tree) : Bytes :=
  match t.root with
  | none => H []
  | some n => n.hash H

/-- One step of `pathToLeaf` (proof.go 156-194; `iavl.ProofInnerNode`): the sibling's hash is `left` when we
descend right, else `right`. -/
structure InnerStep where
  height : Nat
  size : Nat
  version : Nat
  left : Option Bytes
  right : Option Bytes
deriving Repr, DecidableEq

/-- `pathToLeaf` (proof.go 156-194): path from the root down and the leaf reached; `none` is the "key does not
exist" error.  The leaf is returned as key, value, version. -/
def pathToLeaf (key : Key) : Node → Option (List InnerStep × Key × Val × Nat)
  | .leaf k v ver => if k = key then some ([], k, v, ver) else none
  | .branch h s ver k l r =>
    if key < k then
      (pathToLeaf key l).map fun (p, leaf) =>
        ({ height := h, size := s, version := ver, left := none, right := some (r.hash H) } :: p, leaf)
    else
      (pathToLeaf key r).map fun (p, leaf) =>
        ({ height := h, size := s, version := ver, left := some (l.hash H), right := none } :: p, leaf)

/-- ics23 `InnerOp` with SHA-256 (proof.go 140-144). -/
structure InnerOp where
  pre : Bytes
  suf : Bytes
deriving Repr, DecidableEq

/-- ics23 `ExistenceProof` as built by `createExistenceProof` (proof.go 86-94). -/
structure ExistenceProof where
  key : Key
  value : Val
  leafPrefix : Bytes
  path : List InnerOp
deriving Repr, DecidableEq

/-- `convertLeafOp` (proof.go 96-108): the prefix; hash, prehash-value and length operations are fixed. -/
def leafPrefix (version : Nat) : Bytes := putVarint 0 ++ putVarint 1 ++ putVarint version

/-- One round of the loop of `convertInnerOps` (proof.go 119-146).  A sibling hash is present on the left iff
`len(path[i].Left) > 0`. -/
def convertInnerOp (st : InnerStep) : InnerOp :=
  let pre := putVarint st.height ++ putVarint st.size ++ putVarint st.version
  match st.left with
  | some lh => { pre := pre ++ [0x20] ++ lh ++ [0x20], suf := [] }
  | none => { pre := pre ++ [0x20], suf := [0x20] ++ st.right.getD [] }

/-- `convertInnerOps` (proof.go 111-148): from the leaf up to the root. -/
def convertInnerOps (path : List InnerStep) : List InnerOp := (path.reverse).map convertInnerOp

/-- `createExistenceProof` (proof.go 86-94).  The nil root, on which Go dereferences a nil interface and
panics, is not modelled here (the function takes a node). -/
def createExistenceProof (n : Node) (key : Key) : Option ExistenceProof :=
  (pathToLeaf H key n).map fun (p, k, v, ver) =>
    { key := k, value := v, leafPrefix := leafPrefix ver, path := convertInnerOps p }

/-- ics23 `LeafOp.Apply` for the operations chosen in `convertLeafOp` (SHA-256, prehash value with SHA-256,
VAR_PROTO lengths).  ics23 is an external library; this is its documented calculation. -/
def applyLeaf (p : ExistenceProof) : Bytes :=
  H (p.leafPrefix ++ encodeBytes p.key ++ encodeBytes (H p.value))

/-- ics23 `InnerOp.Apply` with SHA-256. -/
def applyInner (op : InnerOp) (child : Bytes) : Bytes := H (op.pre ++ child ++ op.suf)

/-- ics23 `ExistenceProof.Calculate`. -/
def ExistenceProof.calculate (p : ExistenceProof) : Bytes :=
  p.path.foldl (fun acc op => applyInner H op acc) (applyLeaf H p)

end MemIAVL
