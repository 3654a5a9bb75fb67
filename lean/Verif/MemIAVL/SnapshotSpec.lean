import Verif.MemIAVL.Snapshot
import Verif.MemIAVL.Spec
/-! # memiavl: what it means that a snapshot stores a tree -/
namespace MemIAVL

/-- Reading the persisted node `p` of snapshot `s` through the accessors of `PersistedNode` gives exactly the node
`n`, at every level: same kind, height, size, version, key, value, hash, and children that again read as the
children of `n`. -/
def Reads (H : Bytes → Bytes) (s : Snap) (p : PRef) : Node → Prop
  | n@(.leaf k v ver) =>
    p.isLeaf = true ∧ s.height p = some 0 ∧ s.size p = some 1 ∧ s.version p = some ver ∧
    s.key p = some k ∧ s.value p = some v ∧ s.hash p = some (n.hash H)
  | n@(.branch h sz ver k l r) =>
    p.isLeaf = false ∧ s.height p = some h ∧ s.size p = some sz ∧ s.version p = some ver ∧
    s.key p = some k ∧ s.hash p = some (n.hash H) ∧
    (∃ pl, s.left p = some pl ∧ Reads H s pl l) ∧ (∃ pr, s.right p = some pr ∧ Reads H s pr r)

/-- Total size of the key-value file a tree needs: 8 bytes and the contents per pair. -/
def kvBytes (l : List (Key × Val)) : Nat := (l.map (fun p => 8 + p.1.length + p.2.length)).sum

/-- Node versions of a tree. -/
def Node.versions : Node → List Nat
  | .leaf _ _ ver => [ver]
  | .branch _ _ ver _ l r => ver :: (l.versions ++ r.versions)

/-- The tree fits the fixed-width fields of the snapshot format (`uint32` number of leaves, versions, key and value
lengths, `uint64` file offset). -/
structure Node.FitsFormat (n : Node) : Prop where
  leaves : n.toList.length < 2 ^ 32
  versions : ∀ v ∈ n.versions, v < 2 ^ 32
  lengths : ∀ p ∈ n.toList, p.1.length < 2 ^ 32 ∧ p.2.length < 2 ^ 32
  offset : kvBytes n.toList ≤ 2 ^ 64

end MemIAVL
