import Verif.VM.Interp
import Verif.FeeMarket.Tx
import Verif.Revenue.Registry
/-!
# A whole Ethereum transaction

From the ante handler through the virtual machine to the commit, the share of the developer and the refund of gas, on the accounts of the chain. One
Ethereum message in each Cosmos transaction, London rules, a coin with 18 decimals, delivery in a block.
-/
namespace VM

/-- A transaction with a valid signature of `sender`. -/
structure Tx where
  sender : Addr
  nonce : Nat
  gas : Nat
  price : FeeMarket.Price
  value : Nat
  to : Option Addr
  data : List UInt8
  access : List (Addr × List Word)

/-- `core.IntrinsicGas` of go-ethereum with the rules of Istanbul (x/evm/keeper/gas.go 19-25): the sum in unbounded numbers; the checks for overflow of the
original concern data longer than any block. -/
def intrinsic (t : Tx) : Nat :=
  (if t.to.isNone then 53000 else 21000) + 16 * t.data.countP (fun b => b != 0) + 4 * t.data.countP (fun b => b == 0) +
    2400 * t.access.length + 1900 * (t.access.map (fun e => e.2.length)).sum

/-- What the transaction is for the fee market. -/
def Tx.fees (t : Tx) : FeeMarket.Tx :=
  { sender := t.sender.toNat, nonce := t.nonce, gas := t.gas, price := t.price, value := t.value, create := t.to.isNone, intrinsic := intrinsic t }

/-- The chain: rules for fees, virtual machine, the account that collects fees, the accounts that may not receive coins from modules (app.go 674-680, 858),
the precompiles that are warm, the active static precompiles, the accounts whose contracts are not registered (state_transition.go 370: the erc20 module), and
the parameters of the revenue module. -/
structure Chain where
  fee : FeeMarket.Env
  vm : Env
  collector : Addr
  blocked : Addr → Bool
  warm : Addr → Bool
  static : Addr → Bool
  unregistered : Addr → Bool
  revenue : Revenue.Params

/-- The state of the chain, as far as it matters here. -/
structure St where
  world : World
  reg : Revenue.Registry

/-- The context of the virtual machine (x/evm/keeper/state_transition.go 60-90). -/
def Chain.env (c : Chain) (t : Tx) (base : Nat) : Env := { c.vm with origin := t.sender, gasPrice := BitVec.ofNat 256 (t.price.message base) }

/-- Checks of the ante handler on the accounts (app/ante/evm/06_account_verification.go 19-45, 07_can_transfer.go 17-57, 09_gas_consume.go 68-87,
10_increment_sequence.go 13-37). The account of the sender exists or is created by 06. -/
def accountChecks (base : Nat) (w : World) (t : Tx) : Bool :=
  decide (w.code t.sender = []) && decide ((t.price.cap * t.gas + t.value : Nat) ≤ w.balance t.sender) && decide (base ≤ t.price.cap) && decide (t.nonce = w.nonce t.sender)

/-- `MonoDecorator.AnteHandle` (app/ante/evm/mono.go 123-333): checks, then the fee goes to the collector and the nonce is increased
(it does not wrap around after 2^64 transactions as in the code). -/
def ante (c : Chain) (base : Nat) (w : World) (t : Tx) : Option World :=
  if FeeMarket.basic t.fees && FeeMarket.globalFee c.fee base t.fees && FeeMarket.permitted c.fee t.fees && accountChecks base w t &&
      decide (t.gas ≤ c.fee.limit) then
    some ((w.transfer t.sender c.collector (t.price.effective base * t.gas : Nat)).setNonce t.sender (t.nonce + 1))
  else none

/-- A fresh `StateDB` and `PrepareAccessList` (x/evm/statedb/statedb.go 429-444). -/
def prepare (c : Chain) (t : Tx) (w : World) : World :=
  { w with
    warmA := fun a => decide (a = t.sender) || decide (t.to = some a) || c.warm a || t.access.any (fun e => decide (e.1 = a))
    warmS := fun a k => t.access.any (fun e => decide (e.1 = a) && e.2.any (fun j => decide (j = k)))
    refund := 0
    logs := [] }

/-- The call or creation (x/evm/keeper/state_transition.go 361-381). For a creation the nonce of the sender is set to that of the transaction before and to the
next one afterwards. -/
def execute (c : Chain) (t : Tx) (base : Nat) (w : World) : Res :=
  let env := c.env t base
  let gas := t.gas - intrinsic t
  match t.to with
  | some b => evmCall env (run env (gas + 1)) 0 false t.sender b t.data gas t.value w
  | none =>
    let r := evmCreate env (run env (gas + 1)) 0 false t.sender (env.createAddr t.sender t.nonce) t.data gas t.value (w.setNonce t.sender t.nonce)
    { r with world := r.world.setNonce t.sender (t.nonce + 1) }

/-- What an account looks like in the store. -/
def Acct.settled (c : Acct) : Acct := { c with dirty := [] }

/-- The reasons for which a commit fails: an account that is deleted existed without code before (x/evm/keeper/statedb.go 247-258), or coins are minted to an
account that may not receive any (113-134 with the bank keeper). -/
def undeletable (w0 w : World) : Bool := w.accts.any (fun e => e.2.suicided && w0.exist e.1 && decide (w0.code e.1 = []))
def unpayable (c : Chain) (w0 w : World) : Bool := w.accts.any (fun e => !e.2.suicided && c.blocked e.1 && decide (w0.balance e.1 < e.2.balance))

/-- `Commit` (x/evm/statedb/statedb.go 507-555; x/evm/keeper/statedb.go 113-283): deleted accounts lose storage and what they still hold, the others are written.
`w0` is the state of the keeper. -/
def commit (c : Chain) (w0 w : World) : Option World :=
  if undeletable w0 w || unpayable c w0 w then none
  else some { w with
    accts := (w.accts.filter (fun e => !e.2.suicided)).map (fun e => (e.1, e.2.settled))
    store := fun a k => if w.suicided a then 0#256 else w.state a k
    burnt := w.burnt + ((w.accts.filter (fun e => e.2.suicided)).map (fun e => e.2.balance)).sum
    refund := 0 }

/-- `PostContractCreation` (state_transition.go 370-375). -/
def registered (c : Chain) (t : Tx) (reg : Revenue.Registry) : Revenue.Registry :=
  if t.to.isNone && !c.unregistered t.sender && !c.static t.sender then Revenue.postCreation c.revenue reg (c.vm.createAddr t.sender t.nonce) t.sender else reg

/-- A payment by the bank module: nothing happens if it is refused (x/revenue/v1/keeper/evm_hooks.go 96-112; an amount of zero is an invalid coin). -/
def pay (c : Chain) (w : World) (dst : Addr) (amount : Nat) : World :=
  if amount = 0 ∨ c.blocked dst = true ∨ w.balance c.collector < amount then w else w.transfer c.collector dst amount

/-- `PostTxProcessing` (evm_hooks.go 47-122): the share of the developer. -/
def distribute (c : Chain) (t : Tx) (base used : Nat) (s : St) : St :=
  match t.to with
  | none => s
  | some b =>
    if t.price.message base = 0 ∨ c.revenue.enabled = false ∨ c.revenue.share = 0 ∨ c.static b = true then s
    else match Revenue.payee s.reg b with
      | none => s
      | some dst => { s with world := pay c s.world dst (Revenue.portion c.revenue.share (used * t.price.message base)) }

/-- `RefundGas` (x/evm/keeper/gas.go 31-54). -/
def giveBack (c : Chain) (w : World) (dst : Addr) (amount : Nat) : Option World :=
  if w.balance c.collector < amount then none else some (w.transfer c.collector dst amount)

/-- The gas that is charged (state_transition.go 383-427). -/
def gasUsed (c : Chain) (t : Tx) (r : Res) : Nat :=
  FeeMarket.charged c.fee.mult t.gas (t.gas - r.gas - FeeMarket.toRefund r.world.refund (t.gas - r.gas))

/-- After the execution (state_transition.go 383-438 and 151-260): commit, developer share, refund. A failed execution is thrown away. `s` is the state after the
ante handler, which stays on an error. -/
def settle (c : Chain) (t : Tx) (base : Nat) (s : St) (r : Res) : St × FeeMarket.Result :=
  match commit c s.world r.world with
  | none => (s, .error)
  | some w =>
    if 2 ^ 64 ≤ t.gas * c.fee.mult / FeeMarket.one then (s, .error)
    else
      let ok := r.status == .ok
      let s1 := if ok then distribute c t base (gasUsed c t r) ⟨w, registered c t s.reg⟩ else s
      match giveBack c s1.world t.sender ((t.gas - gasUsed c t r) * t.price.message base) with
      | none => (s, .error)
      | some w' => ({ s1 with world := w' }, .done (gasUsed c t r) ok)

/-- `ApplyTransaction` (state_transition.go 151-260). A panic is caught by the SDK and is an error. -/
def applyTx (c : Chain) (t : Tx) (base : Nat) (s : St) : St × FeeMarket.Result :=
  if t.gas < intrinsic t then (s, .error)
  else
    let r := execute c t base (prepare c t s.world)
    if r.status = .panic ∨ r.status = .outOfFuel then (s, .error) else settle c t base s r

/-- Delivery of a transaction. -/
def deliver (c : Chain) (s : St) (t : Tx) : St × FeeMarket.Result :=
  match c.fee.base with
  | none => (s, .refused)
  | some base =>
    match ante c base s.world t with
    | none => (s, .refused)
    | some w => applyTx c t base { s with world := w }

end VM
