import Verif.MemIAVL.Model
/-!
# memiavl: specification

What the tree operations are supposed to mean, independent of the tree code.
-/
namespace MemIAVL

/-- The abstract content of a store: the last value written for every key. -/
abbrev Content := Key → Option Val

/-- Effect of one operation on the abstract content: last write wins, saving changes nothing. -/
def Content.apply (c : Content) : Op → Content
  | .set k v => fun k' => if k' = k then some v else c k'
  | .remove k => fun k' => if k' = k then none else c k'
  | .save => c

/-- Abstract content after a history, starting with the empty store. -/
def contentAfter (ops : List Op) : Content := ops.foldl Content.apply (fun _ => none)

namespace Node

/-- The stored pairs from left to right. -/
def toList : Node → List (Key × Val)
  | leaf k v _ => [(k, v)]
  | branch _ _ _ _ l r => l.toList ++ r.toList

/-- Search order: left keys are smaller than the branch key, and the branch key is the smallest key
of the right subtree. -/
def Ordered : Node → Prop
  | leaf .. => True
  | branch _ _ _ k l r =>
    l.Ordered ∧ r.Ordered ∧ (∀ p ∈ l.toList, p.1 < k) ∧ (∀ p ∈ r.toList, k ≤ p.1) ∧
      ∃ p ∈ r.toList, p.1 = k

/-- Longest path to a leaf. -/
def depth : Node → Nat
  | leaf .. => 0
  | branch _ _ _ _ l r => max l.depth r.depth + 1

/-- The stored size and height of every node are the number of leaves below and the depth. -/
def Exact : Node → Prop
  | leaf .. => True
  | branch h s _ k l r =>
    l.Exact ∧ r.Exact ∧ h = max l.depth r.depth + 1 ∧ s = l.toList.length + r.toList.length

/-- AVL balance: siblings' depths differ by at most one, everywhere. -/
def Balanced : Node → Prop
  | leaf .. => True
  | branch _ _ _ _ l r => l.Balanced ∧ r.Balanced ∧ l.depth ≤ r.depth + 1 ∧ r.depth ≤ l.depth + 1

/-- Well-formed nodes. -/
structure WF (n : Node) : Prop where
  ordered : n.Ordered
  exact : n.Exact
  balanced : n.Balanced

end Node

/-- Stored pairs of a tree. -/
def Tree.toList (t : Tree) : List (Key × Val) :=
  match t.root with
  | none => []
  | some n => n.toList

/-- A tree is well-formed if it is empty or its root is. -/
def Tree.WF (t : Tree) : Prop := ∀ n, t.root = some n → n.WF

/-- Number of stored keys smaller than `key`. -/
def rank (key : Key) (l : List (Key × Val)) : Nat := (l.filter (fun p => p.1 < key)).length

/-- Strictly increasing keys. -/
def SortedKeys (l : List (Key × Val)) : Prop := l.Pairwise (fun a b => a.1 < b.1)

end MemIAVL
