import Verif.FeeMarket.BaseFee
/-!
# The gas price a node suggests

Models `SuggestGasTipCap` (/repo/helios-chain/rpc/backend/chain_info.go, lines 325-354), `GasPrice`
(/repo/helios-chain/rpc/backend/call_tx.go, lines 375-407) and the two checks of a transaction's price in the
block it goes into (/repo/helios-chain/app/ante/evm/03_global_fee.go, lines 19-35, and 07_can_transfer.go, lines
26-33), over the fee market of `FeeMarket/BaseFee.lean`.

`LegacyDec` numbers are in units of 10^-18 as there; the coin has 18 decimals. Prices of transactions are whole
numbers.
-/

namespace GasPrice

open FeeMarket

/-- A number as an `int64` of Go: the low 64 bits, signed (`big.Int.Int64` and overflow). -/
def int64 (i : Int) : Int := (i + 2 ^ 63) % 2 ^ 64 - 2 ^ 63

/-- `SuggestGasTipCap` (chain_info.go lines 328-354): no tip without a base fee. -/
def suggestTip (base : Option Nat) (elasticity denom : Nat) : Nat :=
  match base with
  | none => 0
  | some b => ((int64 (int64 b * ((elasticity : Int) - 1))).tdiv denom).toNat

/-- `GasPrice` (call_tx.go lines 376-407). `rpcMin` is what the node is configured with; the least price of the
chain loses its fraction (`GlobalMinGasPrice`, /repo/helios-chain/x/evm/keeper/grpc_query.go lines 720-724). -/
def gasPrice (p : Params) (rpcMin : Nat) : Nat :=
  max (match evmBaseFee p with
    | some b => suggestTip (some b) p.elasticity p.denom + b
    | none => rpcMin) (p.minPrice / one)

/-- `CheckGlobalFee` (03_global_fee.go lines 19-35) for a transaction with a gas price. -/
def globalOk (p : Params) (price gas : Nat) : Bool :=
  decide (p.minPrice = 0) || !decide (price * gas * one < p.minPrice * gas)

/-- `CanTransfer` (07_can_transfer.go lines 26-33): the price covers the base fee. Without one the transaction is
refused before (mono.go lines 91-96). -/
def baseOk (p : Params) (price : Nat) : Bool :=
  match evmBaseFee p with
  | none => false
  | some b => !decide (price < b)

end GasPrice
