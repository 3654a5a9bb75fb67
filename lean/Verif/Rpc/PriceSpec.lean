import Verif.Rpc.Price
/-!
# Specification: a gas price that is enough
-/

namespace GasPrice

open FeeMarket

/-- The price covers the base fee, if there is one, and the least price of the chain for any amount of gas. -/
def Enough (p : Params) (price : Nat) : Prop :=
  (∀ b, evmBaseFee p = some b → b ≤ price) ∧ ∀ gas, p.minPrice * gas ≤ price * one * gas

/-- The price is at most `d` short of the base fee. -/
def Nearly (d : Nat) (p : Params) (price : Nat) : Prop := ∀ b, evmBaseFee p = some b → b ≤ price + d

end GasPrice
