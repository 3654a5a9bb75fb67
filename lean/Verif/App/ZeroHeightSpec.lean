import Verif.App.ZeroHeight
/-!
# What an export for height zero should give
-/

namespace ZeroHeight

/-- All coins the distribution module held: still outstanding, in the community pool, or paid out. -/
def total (s : State) : Nat := s.pool + s.paid + (s.vals.map Val.outstanding).sum

/-- Addresses are unique, as keys of a store are. -/
def Unique (s : State) : Prop := s.vals.Pairwise fun v w => v.addr ≠ w.addr

/-- No validator that takes part is left off the list. -/
def Complete (allow : List (List Nat)) (s : State) : Prop := allow = [] ∨ ∀ v ∈ s.vals, v.jailed = true ∨ v.addr ∈ allow

/-- The state is fit for a new chain: nothing outstanding, every delegation to a validator starts at a period with a
historical record, and all heights are zero. -/
structure Fit (s : State) : Prop where
  nothing : ∀ v ∈ s.vals, v.outstanding = 0 ∧ v.unbonding = 0
  starts : ∀ d ∈ s.dels, (∃ v ∈ s.vals, v.addr = d.val) → ∃ p, (d.who, d.val, p) ∈ s.starts ∧ 1 ≤ s.refs d.val p
  heights : ∀ h ∈ s.reds ++ s.ubds ++ s.infos, h = 0

/-- What delegators of a validator can withdraw together. -/
def owed (a : List Nat) (ds : List Del) : Nat := (ds.map fun d => if d.val = a then d.reward else 0).sum

/-- Claims are covered: delegations are to validators, whose outstanding rewards suffice for commission and rewards. -/
def Covered (s : State) : Prop :=
  (∀ d ∈ s.dels, ∃ v ∈ s.vals, v.addr = d.val) ∧ ∀ v ∈ s.vals, v.commission + owed v.addr s.dels ≤ v.outstanding

/-- Whole coins of an amount. -/
def coins (n : Nat) : Nat := n / 1000000000000000000 * 1000000000000000000

end ZeroHeight
