/-!
# How transactions enter the chain

Models the choice of the ante handler (/repo/helios-chain/app/ante/ante.go, lines 14-55), the
decorators that look at the types of the messages of Cosmos transactions
(/repo/helios-chain/app/ante/cosmos/reject_msgs.go, lines 16-26, and
/repo/helios-chain/app/ante/cosmos/authz.go, lines 13-88, as set up in
/repo/helios-chain/app/ante/cosmos.go, lines 15-66), and the checks of the envelope of Ethereum
transactions (/repo/helios-chain/app/ante/evm/04_validate.go, lines 20-123, and the loop of
/repo/helios-chain/app/ante/evm/mono.go, lines 123-325).

The other decorators (fees, signatures, nonces) can only refuse more; they are the subject of other
parts of the model.
-/

namespace Routes

/-- Type URLs of messages. -/
abbrev Url := String

/-- The URL of `MsgEthereumTx`. -/
def ethUrl : Url := "/ethermint.evm.v1.MsgEthereumTx"

/-- The URL of `MsgCreateVestingAccount`. -/
def vestingUrl : Url := "/cosmos.vesting.v1beta1.MsgCreateVestingAccount"

/-- The types that may not appear inside an `authz.MsgExec` (cosmos.go lines 18-21, 45-48). -/
def disabled : List Url := [ethUrl, vestingUrl]

/-- What an Ethereum transaction says: its gas limit, the fee it offers for that, and a number
standing for everything else in it, the signature included. -/
structure EthData where
  rest : Nat
  gas : Nat
  fee : Nat
  deriving DecidableEq, Repr

/-- A `MsgEthereumTx` (/repo/proto/ethermint/evm/v1/tx.proto lines 29-45). The size is a number of
bytes instead of a floating-point number. -/
structure EthMsg where
  data : EthData
  size : Nat
  hash : Nat
  sender : String
  deriving DecidableEq, Repr

/-- Messages as the decorators tell them apart: Ethereum transactions, `authz.MsgExec` with its
messages, `authz.MsgGrant` with the type it grants, and any other message, with the messages it may
carry (a governance proposal, say). The unpacking of the messages is taken to succeed. -/
inductive Msg
  | eth (m : EthMsg)
  | exec (inner : List Msg)
  | grant (url : Url)
  | other (url : Url) (carried : List Msg)

/-! ## The limiter -/

/-- `isDisabledMsg` (authz.go lines 80-88). -/
def isDisabled (url : Url) : Bool := disabled.contains url

/-- `maxNestedMsgs` (authz.go line 13). -/
def maxNested : Nat := 7

/-- The level after the loop has met this message (authz.go line 54): a `MsgExec` raises it. -/
def raised (lvl : Nat) : Msg → Nat
  | .exec _ => lvl + 1
  | .eth _ => lvl
  | .grant _ => lvl
  | .other _ _ => lvl

mutual

/-- The body of the loop of `checkDisabledMsgs` (authz.go lines 48-73) for one message: `inner` is
`isAuthzInnerMsg`, `lvl` is `nestedLvl`. The test at the start of the function (lines 44-46) is made
here where the function is called. -/
def allowedOne (inner : Bool) (lvl : Nat) : Msg → Bool
  | .exec ms => decide (lvl + 1 < maxNested) && allowed true (lvl + 1) ms
  | .grant url => !isDisabled url
  | .eth _ => !(inner && isDisabled ethUrl)
  | .other url _ => !(inner && isDisabled url)

/-- The loop of `checkDisabledMsgs` (authz.go lines 47-75), which raises `nestedLvl` at every
`MsgExec` it meets and does not lower it again. -/
def allowed (inner : Bool) (lvl : Nat) : List Msg → Bool
  | [] => true
  | m :: rest => allowedOne inner lvl m && allowed inner (raised lvl m) rest

end

/-- The decorator of the limiter (authz.go lines 29-34). -/
def limiter (msgs : List Msg) : Bool := decide (1 < maxNested) && allowed false 1 msgs

/-- The decorator that refuses Ethereum messages in Cosmos transactions (reject_msgs.go lines
16-26). -/
def noEth : List Msg → Bool
  | [] => true
  | .eth _ :: _ => false
  | .exec _ :: rest => noEth rest
  | .grant _ :: rest => noEth rest
  | .other _ _ :: rest => noEth rest

/-! ## Envelopes -/

/-- The extension options the handler knows, and the others. -/
inductive Opt
  | web3
  | ethereum
  | dynamicFee
  | unknown
  deriving DecidableEq, Repr

/-- A Cosmos transaction: the fields of its body, its fee and the numbers of its non-critical
options, signer infos and signatures. -/
structure Tx where
  msgs : List Msg
  memo : String
  timeout : Nat
  options : List Opt
  nonCritical : Nat
  signers : Nat
  payer : String
  granter : String
  fee : List (String × Nat)
  gasLimit : Nat
  signatures : Nat

/-- The ante handlers. -/
inductive Handler
  | legacy
  | mono
  | cosmos
  deriving DecidableEq, Repr

/-- `NewAnteHandler` (ante.go lines 14-55): the first extension option decides. -/
def route (tx : Tx) : Option Handler :=
  match tx.options with
  | [] => some .cosmos
  | .web3 :: _ => some .legacy
  | .ethereum :: _ => some .mono
  | .dynamicFee :: _ => some .cosmos
  | .unknown :: _ => none

/-- `Coins.AmountOf`: the amount of one denomination. -/
def amountOf (denom : String) : List (String × Nat) → Nat
  | [] => 0
  | (d, a) :: rest => if d = denom then a else amountOf denom rest

/-- `ValidateTx` (04_validate.go lines 58-100), apart from the basic validation of the transaction.-/
def plain (tx : Tx) : Bool :=
  decide (tx.memo = "") && decide (tx.timeout = 0) && decide (tx.nonCritical = 0) &&
    decide (tx.options.length = 1) && decide (tx.signers = 0) && decide (tx.payer = "") &&
    decide (tx.granter = "") && decide (tx.signatures = 0)

/-- `MsgEthereumTx.ValidateBasic` (/repo/helios-chain/x/evm/types/msg.go lines 159-199), which
`baseapp` calls for each message, without the validation of the data, and `ValidateMsg`
(04_validate.go lines 20-33) as far as the sender field goes. `hashOf` is the hash of an Ethereum
transaction. -/
def basic (hashOf : EthData → Nat) (m : EthMsg) : Bool :=
  decide (m.size = 0) && decide (m.data.gas ≠ 0) && decide (m.data.gas < 9223372036854775808) &&
    decide (m.hash = hashOf m.data) && decide (m.sender = "")

/-- The loop of the mono decorator (mono.go lines 158-321), as far as messages and totals go: all
messages must be Ethereum transactions; gives the fees and gas of all of them. The gas is added up
as a 64-bit number. -/
def totals (hashOf : EthData → Nat) : List Msg → Option (Nat × Nat)
  | [] => some (0, 0)
  | .eth m :: rest =>
    if basic hashOf m then
      match totals hashOf rest with
      | some (fee, gas) => some (m.data.fee + fee, (m.data.gas + gas) % 18446744073709551616)
      | none => none
    else none
  | .exec _ :: _ => none
  | .grant _ :: _ => none
  | .other _ _ :: _ => none

/-- `CheckTxFee` (04_validate.go lines 106-123), where `factor` is the conversion factor of the EVM
coin. -/
def feeMatches (denom : String) (factor : Nat) (tx : Tx) (fee gas : Nat) : Bool :=
  decide (amountOf denom tx.fee = fee / factor) && decide (tx.gasLimit = gas)

/-- The mono decorator (mono.go lines 123-325) outside of rechecks. -/
def monoAdmits (hashOf : EthData → Nat) (denom : String) (factor : Nat) (tx : Tx) : Bool :=
  plain tx && decide (tx.msgs.length ≠ 0) &&
    match totals hashOf tx.msgs with
    | some (fee, gas) => feeMatches denom factor tx fee gas
    | none => false

/-- The whole: is the transaction admitted, as far as its envelope and the types of its messages
go. -/
def admits (hashOf : EthData → Nat) (denom : String) (factor : Nat) (tx : Tx) : Bool :=
  match route tx with
  | none => false
  | some .legacy => noEth tx.msgs && limiter tx.msgs
  | some .cosmos => noEth tx.msgs && limiter tx.msgs
  | some .mono => monoAdmits hashOf denom factor tx

/-- `BuildTx` (/repo/helios-chain/x/evm/types/msg.go lines 327-362) with the coins converted: the
envelope the node puts around an Ethereum transaction it gets over RPC. -/
def build (hashOf : EthData → Nat) (denom : String) (factor : Nat) (d : EthData) : Tx where
  msgs := [.eth ⟨d, 0, hashOf d, ""⟩]
  memo := ""
  timeout := 0
  options := [.ethereum]
  nonCritical := 0
  signers := 0
  payer := ""
  granter := ""
  fee := if 0 < d.fee then [(denom, d.fee / factor)] else []
  gasLimit := d.gas
  signatures := 0

end Routes
