import Verif.MemIAVL.Spec
/-!
# memiavl: range iterator

Models `/repo/helios-chain/memiavl/iterator.go` (1-114).  Cloning of the returned slices (`zeroCopy`) is
not modelled.
-/
namespace MemIAVL

/-- Number of nodes below and including a node; only used to justify termination. -/
def Node.count : Node → Nat
  | .leaf .. => 1
  | .branch _ _ _ _ l r => l.count + r.count + 1

/-- Domain and direction of an iteration (iterator.go 6-9).  `none` is Go's nil bound. -/
structure Dom where
  start : Option Key
  stop : Option Key
  ascending : Bool

/-- `afterStart` (iterator.go 76): no start bound, or start strictly below the key. -/
def Dom.afterStart (d : Dom) (key : Key) : Bool :=
  match d.start with
  | none => true
  | some s => decide (s < key)

/-- `startCmp == 0` for a non-nil start (iterator.go 75, 80).  For a nil start Go compares the empty
string, but then `afterStart` is already true. -/
def Dom.atStart (d : Dom) (key : Key) : Bool :=
  match d.start with
  | none => decide (key = [])
  | some s => decide (s = key)

/-- `beforeEnd` (iterator.go 77). -/
def Dom.beforeEnd (d : Dom) (key : Key) : Bool :=
  match d.stop with
  | none => true
  | some e => decide (key < e)

/-- The loop of `Iterator.Next` (iterator.go 69-104).  The stack is a list with its top first.
Returns the pair found and the remaining stack, or `none` when the stack runs empty. -/
def Dom.advance (d : Dom) : List Node → Option ((Key × Val) × List Node)
  | [] => none
  | .leaf key value _ :: stack =>
    if (d.afterStart key || d.atStart key) && d.beforeEnd key then some ((key, value), stack)
    else d.advance stack
  | .branch _ _ _ key left right :: stack =>
    if d.ascending then
      let stack := if d.beforeEnd key then right :: stack else stack
      let stack := if d.afterStart key then left :: stack else stack
      d.advance stack
    else
      let stack := if d.afterStart key then left :: stack else stack
      let stack := if d.beforeEnd key then right :: stack else stack
      d.advance stack
termination_by stack => (stack.map Node.count).sum
decreasing_by
  all_goals simp_wf
  all_goals (repeat' split) <;> simp [Node.count] <;> omega

/-- `Iterator` (iterator.go 5-17). -/
structure Iter where
  dom : Dom
  key : Key
  value : Val
  valid : Bool
  stack : List Node

/-- `Iterator.Next` (iterator.go 68-107): on exhaustion only `valid` is cleared. -/
def Iter.next (it : Iter) : Iter :=
  match it.dom.advance it.stack with
  | some ((k, v), stack) => { it with key := k, value := v, stack := stack }
  | none => { it with valid := false, stack := [] }

/-- `NewIterator` (iterator.go 19-35). -/
def Iter.new (start stop : Option Key) (ascending : Bool) (root : Option Node) : Iter :=
  Iter.next { dom := { start, stop, ascending }, key := [], value := [], valid := true,
              stack := root.toList }

/-- The pairs a caller sees in `for ; it.Valid(); it.Next()`, stopping after `n` of them. -/
def Iter.collect : Nat → Iter → List (Key × Val)
  | 0, _ => []
  | n + 1, it => if it.valid then (it.key, it.value) :: Iter.collect n it.next else []

/-- `Tree.Iterator` (tree.go 238-240). -/
def Tree.iterator (t : Tree) (start stop : Option Key) (ascending : Bool) : Iter :=
  Iter.new start stop ascending t.root

end MemIAVL
