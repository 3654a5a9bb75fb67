import Verif.Rpc.FeeHistory
/-!
# Specification: the reward at a percentile of a block's gas
-/

namespace FeeHistory

/-- The gas of transactions with a tip of at most `t`. -/
def gasUpTo (items : List (Nat × Int)) (t : Int) : Nat := ((items.filter fun e => decide (e.2 ≤ t)).map (·.1)).sum

/-- The reward for an amount of gas: the least tip with which that much gas was used, or the greatest tip if less was;
zero for a block without transactions. -/
def IsReward (items : List (Nat × Int)) (need : Nat) (t : Int) : Prop :=
  items = [] ∧ t = 0 ∨
  t ∈ items.map (·.2) ∧ (need ≤ gasUpTo items t ∨ ∀ x ∈ items.map (·.2), x ≤ t) ∧
    ∀ x ∈ items.map (·.2), x < t → gasUpTo items x < need

/-- A way of sorting by tips. -/
def Sorts (arrange : List (Nat × Int) → List (Nat × Int)) : Prop :=
  ∀ l, (arrange l).Perm l ∧ (arrange l).Pairwise fun a b => a.2 ≤ b.2

/-- The rewards of a block for percentiles. -/
def RewardsOf (i : Info) (ps : List Nat) (rs : List Int) : Prop :=
  rs.length = ps.length ∧ ∀ (k : Nat) (p : Nat) (r : Int), ps[k]? = some p → rs[k]? = some r → IsReward i.items (i.used * p / 100) r

/-- All requests of a history are for the same percentiles. -/
def AllAsk (ps : List Nat) (os : List Op) : Prop :=
  ∀ o ∈ os, match o with
    | .block _ => True
    | .ask _ _ qs => qs = ps

end FeeHistory
