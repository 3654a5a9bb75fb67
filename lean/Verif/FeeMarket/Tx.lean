import Verif.FeeMarket.BaseFee
/-!
# The life of an Ethereum transaction: ante handler, execution, refund

One Ethereum message per transaction, London rules, a fee coin with 18 decimals (so that amounts are not scaled), delivery in
a block (not the mempool).  Addresses are numbers.  What the EVM does is a parameter.
-/
namespace FeeMarket

/-- The accounts: balances in the fee coin, sequence numbers (nonces), whether code lives at an address; and the balance of
the fee collector. -/
structure Accounts where
  bal : Nat → Nat
  nonce : Nat → Nat
  code : Nat → Bool
  pot : Nat

/-- Set one value of a function. -/
def upd {α : Type} (f : Nat → α) (k : Nat) (x : α) : Nat → α := fun i => if i = k then x else f i

/-- The prices a transaction offers: legacy and access list transactions (x/evm/types/legacy_tx.go 90-105), dynamic fee
transactions (dynamic_fee_tx.go 113-131). -/
inductive Price where
  | legacy (price : Nat)
  | dynamic (tip cap : Nat)
deriving DecidableEq, Repr

/-- `GetGasFeeCap`. -/
def Price.cap : Price → Nat
  | .legacy p => p
  | .dynamic _ c => c

/-- `GetGasTipCap`. -/
def Price.tip : Price → Nat
  | .legacy p => p
  | .dynamic t _ => t

/-- `EffectiveGasPrice` (legacy_tx.go 216-218; dynamic_fee_tx.go 270-272 with types/utils.go 149-151). -/
def Price.effective (base : Nat) : Price → Nat
  | .legacy p => p
  | .dynamic t c => min (t + base) c

/-- `AsMessage` of go-ethereum: the gas price of a message, for all kinds of transactions. -/
def Price.message (base : Nat) (p : Price) : Nat := min (p.tip + base) p.cap

/-- A transaction with a valid signature of `sender`.  `intrinsic` is the intrinsic gas that go-ethereum computes from its
data. -/
structure Tx where
  sender : Nat
  nonce : Nat
  gas : Nat
  price : Price
  value : Nat
  create : Bool
  intrinsic : Nat
deriving DecidableEq, Repr

/-- What the chain holds fixed during a transaction: the base fee as the EVM sees it, the minimum gas price and the gas
multiplier (decimals), the gas limit of the block, and the permissions to create and to call. -/
structure Env where
  base : Option Nat
  minPrice : Nat
  mult : Nat
  limit : Nat
  mayCreate : Bool
  mayCall : Bool
deriving DecidableEq, Repr

/-- `ValidateBasic` (x/evm/types/msg.go 159-200) with `Validate` of the kinds of transactions (legacy_tx.go 164-203,
dynamic_fee_tx.go 198-257): the parts about gas and amounts. -/
def basic (tx : Tx) : Bool :=
  decide (tx.gas ≠ 0) && decide (tx.gas < 2 ^ 63) && decide (tx.price.tip ≤ tx.price.cap) &&
    decide (tx.price.cap * tx.gas < 2 ^ 256) && decide (tx.value < 2 ^ 256)

/-- `CheckGlobalFee` (app/ante/evm/03_global_fee.go 19-35): the effective fee against the minimum gas price. -/
def globalFee (env : Env) (base : Nat) (tx : Tx) : Bool :=
  decide (env.minPrice = 0) || decide (env.minPrice * tx.gas ≤ tx.price.effective base * tx.gas * one)

/-- `checkDisabledCreateCall` (04_validate.go 37-53). -/
def permitted (env : Env) (tx : Tx) : Bool := if tx.create then env.mayCreate else env.mayCall

/-- `VerifyAccountBalance` and `CheckSenderBalance` (06_account_verification.go 19-45; x/evm/keeper/fees.go 21-42). -/
def funded (s : Accounts) (tx : Tx) : Bool :=
  !s.code tx.sender && decide (tx.price.cap * tx.gas + tx.value ≤ s.bal tx.sender)

/-- `CanTransfer` (07_can_transfer.go 17-57). -/
def canTransfer (s : Accounts) (base : Nat) (tx : Tx) : Bool :=
  decide (base ≤ tx.price.cap) && (decide (tx.value = 0) || decide (tx.value ≤ s.bal tx.sender))

/-- 09_gas_consume.go 68-87 with fees.go 44-63: move the fee from the sender to the fee collector. -/
def takeFee (s : Accounts) (who amount : Nat) : Option Accounts :=
  if amount ≤ s.bal who then some { s with bal := upd s.bal who (s.bal who - amount), pot := s.pot + amount } else none

/-- `IncrementNonce` (10_increment_sequence.go 13-37). -/
def bump (s : Accounts) (who nonce : Nat) : Option Accounts :=
  if nonce = s.nonce who then some { s with nonce := upd s.nonce who (s.nonce who + 1) } else none

/-- `MonoDecorator.AnteHandle` (mono.go 123-333) for one message in a block.  The checks that the Cosmos fee repeats the
fee of the message (`CheckTxFee`), events and priorities are not modelled; `VerifyFee` (fees.go 68-116) repeats the check of
the fee cap. -/
def ante (env : Env) (s : Accounts) (tx : Tx) : Option Accounts :=
  match env.base with
  | none => none
  | some base =>
    if basic tx && globalFee env base tx && permitted env tx && funded s tx && canTransfer s base tx &&
        decide (tx.gas ≤ env.limit) then
      (takeFee s tx.sender (tx.price.effective base * tx.gas)).bind (fun s => bump s tx.sender tx.nonce)
    else none

/-- What the execution does, as far as this file is concerned.  `left` is the gas the EVM hands back, `counter` its refund
counter, `failed` an EVM error, `hooks` an error of the hooks after the transaction, `broken` an error of the keeper (commit,
registration of contracts), `effect` the change of the accounts. -/
structure Outcome where
  left : Nat
  counter : Nat
  failed : Bool
  hooks : Bool
  broken : Bool
  effect : Accounts → Accounts

/-- `GasToRefund` (x/evm/keeper/gas.go 67-74) with the quotient of London. -/
def toRefund (counter used : Nat) : Nat := if counter < used / 5 then counter else used / 5

/-- state_transition.go 412-427: the gas that is charged. -/
def charged (mult gas used : Nat) : Nat := max (gas * mult) (used * one) / one

/-- `ApplyMessageWithConfig` (state_transition.go 311-438), the gas accounting: the gas used, or `none` for an error. -/
def applyMsg (env : Env) (tx : Tx) (o : Outcome) : Option Nat :=
  if tx.gas < tx.intrinsic then none
  else if o.broken then none
  else if tx.gas < o.left then none
  else if 2 ^ 64 ≤ tx.gas * env.mult / one then none
  else some (charged env.mult tx.gas (tx.gas - o.left - toRefund o.counter (tx.gas - o.left)))

/-- state_transition.go 361-377: for a creation the sender's nonce is set to that of the transaction, and afterwards to the
next one. -/
def execute (s : Accounts) (tx : Tx) (o : Outcome) : Accounts :=
  if tx.create then
    { o.effect { s with nonce := upd s.nonce tx.sender tx.nonce } with
      nonce := upd (o.effect { s with nonce := upd s.nonce tx.sender tx.nonce }).nonce tx.sender (tx.nonce + 1) }
  else o.effect s

/-- `RefundGas` (gas.go 31-54). -/
def giveBack (s : Accounts) (who amount : Nat) : Option Accounts :=
  if amount ≤ s.pot then some { s with bal := upd s.bal who (s.bal who + amount), pot := s.pot - amount } else none

/-- What a transaction ends with. -/
inductive Result where
  | refused
  | error
  | done (gasUsed : Nat) (ok : Bool)
deriving DecidableEq, Repr

/-- `ApplyTransaction` (state_transition.go 151-260) after the ante handler: on an error the changes of the ante handler
stay. -/
def apply (env : Env) (base : Nat) (s : Accounts) (tx : Tx) (o : Outcome) : Accounts × Result :=
  match applyMsg env tx o with
  | none => (s, .error)
  | some used =>
    match giveBack (if o.failed || o.hooks then s else execute s tx o) tx.sender
        ((tx.gas - used) * tx.price.message base) with
    | none => (s, .error)
    | some t => (t, .done used (!(o.failed || o.hooks)))

/-- Delivery of a transaction. -/
def deliver (env : Env) (s : Accounts) (tx : Tx) (o : Outcome) : Accounts × Result :=
  match ante env s tx with
  | none => (s, .refused)
  | some t =>
    match env.base with
    | none => (s, .refused)
    | some base => apply env base t tx o

end FeeMarket
