import Verif.Rpc.Estimate

/-!
# What an estimate should be

A gas limit *works* if the transaction runs through with it. The estimate of a transaction is the
least gas limit that works among those the caller may use and can pay for.
-/

namespace Estimate

/-- The transaction runs through with this gas limit. -/
def Works (run : Nat → Run) (g : Nat) : Prop := run g = .fine

instance (run : Nat → Run) (g : Nat) : Decidable (Works run g) :=
  inferInstanceAs (Decidable (run g = .fine))

/-- More gas never hurts. -/
def Monotone (run : Nat → Run) : Prop := ∀ g g', g ≤ g' → Works run g → Works run g'

/-- No gas limit makes the node refuse the transaction outright. -/
def NeverRefused (run : Nat → Run) : Prop := ∀ g, run g ≠ .refused

/-- The caller may use this much gas: it is within the node's cap, within what they asked for (when
that is at least a transfer's gas) and otherwise within the block limit, and they can pay for it
together with the value they send. -/
structure Usable (q : Query) (g : Nat) : Prop where
  cap : g ≤ q.gasCap
  own : ∀ a, q.gas = some a → txGas ≤ a → g ≤ a
  block : (∀ a, q.gas = some a → a < txGas) → 0 < q.blockGas → g ≤ q.blockGas
  funds : q.feeCap ≠ 0 → g * q.feeCap + q.value.getD 0 ≤ q.balance

end Estimate
