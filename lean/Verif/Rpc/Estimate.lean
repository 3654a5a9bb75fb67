/-!
# Estimating the gas of a transaction

Models `BinSearch` (/repo/helios-chain/x/evm/types/utils.go, lines 127-145) and
`EstimateGasInternal` (/repo/helios-chain/x/evm/keeper/grpc_query.go, lines 278-447), which answer
the `eth_estimateGas` query of wallets.

Gas is a 64-bit number, so the additions of the search wrap around. What running the transaction
does is a parameter: for every gas limit, one outcome. (The code runs the message on a copy of the
state, so an earlier trial does not change a later one.)
-/

namespace Estimate

/-- The number of values of a Go `uint64`. -/
def word : Nat := 18446744073709551616

/-- `ethparams.TxGas`, the gas of a plain transfer (grpc_query.go lines 285, 297). -/
def txGas : Nat := 21000

/-- What `ApplyMessageWithConfig` gives for one gas limit (grpc_query.go lines 409-416): it runs
through, runs out of gas, reverts, fails in the machine in another way, is refused because the limit
is below the intrinsic gas, or is refused whatever the limit. -/
inductive Run
  | fine
  | ranOut
  | reverted
  | broken
  | intrinsic
  | refused
  deriving DecidableEq, Repr

/-- The first and third result of `executable` (grpc_query.go lines 370-417): `none` is an error to
bail out with, `some b` says whether the run failed. -/
def verdict : Run → Option Bool
  | .fine => some false
  | .ranOut => some true
  | .reverted => some true
  | .broken => some true
  | .intrinsic => some true
  | .refused => none

/-- Where the loop of `BinSearch` stands: about to test its condition, at its end with a result, or
returned with an error. -/
inductive Search
  | searching (lo hi : Nat)
  | found (hi : Nat)
  | gaveUp
  deriving DecidableEq, Repr

/-- The condition `lo+1 < hi` (utils.go line 129), on 64-bit numbers. -/
def goesOn (lo hi : Nat) : Bool := decide ((lo + 1) % word < hi)

/-- `mid := (hi + lo) / 2` (utils.go line 130), on 64-bit numbers. -/
def middle (lo hi : Nat) : Nat := (hi + lo) % word / 2

/-- The rest of the loop body (utils.go lines 131-142). -/
def narrow (lo hi mid : Nat) : Option Bool → Search
  | none => .gaveUp
  | some true => .searching mid hi
  | some false => .searching lo mid

/-- One pass of the loop (utils.go lines 129-144). -/
def pass (run : Nat → Run) : Search → Search
  | .searching lo hi =>
    if goesOn lo hi then narrow lo hi (middle lo hi) (verdict (run (middle lo hi)))
    else .found hi
  | s => s

/-- The loop after at most `n` passes. -/
def passes (run : Nat → Run) : Nat → Search → Search
  | 0, s => s
  | n + 1, s => passes run n (pass run s)

/-- What the query is about: the gas cap of the node, the gas the caller gave, the block gas limit
of the consensus parameters (zero when unlimited), the fee cap, and the coins and value of the
sender (grpc_query.go lines 285-366). The fee cap is that of the message made from the arguments. -/
structure Query where
  gasCap : Nat
  gas : Option Nat
  blockGas : Nat
  feeCap : Nat
  balance : Nat
  value : Option Nat
  deriving DecidableEq, Repr

/-- The highest gas limit before looking at the funds (grpc_query.go lines 302-313). -/
def asked (q : Query) : Nat :=
  match q.gas with
  | some g => if txGas ≤ g then g else if 0 < q.blockGas then q.blockGas else q.gasCap
  | none => if 0 < q.blockGas then q.blockGas else q.gasCap

/-- The variable `gasCap` (grpc_query.go lines 315-320). -/
def capped (q : Query) : Nat :=
  if q.gasCap ≠ 0 ∧ q.gasCap < asked q then q.gasCap else asked q

/-- The gas the funds left after the value pay for (grpc_query.go lines 343-352). -/
def allowance (q : Query) : Nat := (q.balance - q.value.getD 0) / q.feeCap

/-- The value is not below the balance (grpc_query.go lines 345-348). -/
def cannotSend (q : Query) : Bool :=
  match q.value with
  | some v => decide (q.balance ≤ v)
  | none => false

/-- The funds lower the limit (grpc_query.go line 355). -/
def lowered (q : Query) : Bool :=
  decide (q.feeCap ≠ 0) && decide (allowance q < word) && decide (allowance q < capped q)

/-- The variable `hi` at the start of the search (grpc_query.go lines 339-364). -/
def top (q : Query) : Nat := if lowered q then allowance q else capped q

/-- The answers of the query: the seven errors, the reverted response, an estimate, or none yet. -/
inductive Answer
  | capTooLow
  | noFundsForValue
  | noFunds
  | refused
  | reverted
  | broken
  | needsMore
  | gas (g : Nat)
  | pending
  deriving DecidableEq, Repr

/-- The last test, at the cap (grpc_query.go lines 425-445). -/
def atCap (hi : Nat) : Run → Answer
  | .fine => .gas hi
  | .ranOut => .needsMore
  | .reverted => .reverted
  | .broken => .broken
  | .intrinsic => .needsMore
  | .refused => .refused

/-- What follows the search (grpc_query.go lines 419-446). Note the comparison with `capped`, the
limit before it was lowered to the funds. -/
def conclude (q : Query) (run : Nat → Run) : Search → Answer
  | .searching _ _ => .pending
  | .gaveUp => .refused
  | .found hi => if hi = capped q then atCap hi (run hi) else .gas hi

/-- `EstimateGasInternal` (grpc_query.go lines 278-447), with at most `n` passes of the search. The
decoding of the arguments and the loading of the configuration are left out. -/
def estimate (n : Nat) (q : Query) (run : Nat → Run) : Answer :=
  if q.gasCap < txGas then .capTooLow
  else if q.feeCap ≠ 0 ∧ cannotSend q = true then .noFundsForValue
  else if lowered q = true ∧ allowance q < txGas then .noFunds
  else conclude q run (passes run n (.searching (txGas - 1) (top q)))

end Estimate
