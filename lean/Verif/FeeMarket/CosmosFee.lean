import Verif.FeeMarket.BaseFee
/-!
# Fees of Cosmos transactions (`app/ante/evm/fee_checker.go`, `app/ante/cosmos/min_price.go`)

Fees are in the one coin that is allowed for fees.
-/
namespace FeeMarket

/-- `LegacyDec.Ceil` of a non-negative number, as an integer. -/
def ceilDec (d : Nat) : Nat := (d + (one - 1)) / one

/-- `MinGasPriceDecorator.AnteHandle` (app/ante/cosmos/min_price.go 32-95) for transactions that are delivered: the offered
fee against the minimum gas price.  `fee = none` is an empty list of coins, which is refused here because a transaction
without fee coins has the value nil (81); with several coins or another coin it is refused as well (48-51), which is not
modelled. -/
def minPriceOk (minPrice gas : Nat) (fee : Option Nat) : Bool :=
  minPrice == 0 ||
    match fee with
    | none => false
    | some f => decide (ceilDec (minPrice * gas) ≤ f)

/-- `effectiveGasPriceLegacyDec` (fee_checker.go 172-174). -/
def effectivePrice (base cap tip : Nat) : Nat := min (tip + base) cap

/-- The tip when the transaction has no option for it (fee_checker.go 63). -/
def defaultTip : Nat := (2 ^ 63 - 1) * one

/-- `feeChecker` (fee_checker.go 41-116) after London, without the priority: the fee the sender pays.  `base` is the decimal
that `GetBaseFee` returns, `tip` the tip of the option as a decimal. -/
def feeChecker (base : Option Nat) (tip : Option Nat) (gas fee : Nat) : Option Nat :=
  if gas = 0 then none
  else if fee * one / gas < base.getD 0 then none
  else some (ceilDec (effectivePrice (base.getD 0) (fee * one / gas) (tip.getD defaultTip) * gas))

/-- The two checks of a Cosmos transaction in the order of the ante handler (app/ante/cosmos.go 26-29). -/
def cosmosFee (p : Params) (tip : Option Nat) (gas : Nat) (fee : Option Nat) : Option Nat :=
  if minPriceOk p.minPrice gas fee then feeChecker (getBaseFee p) tip gas (fee.getD 0) else none

end FeeMarket
