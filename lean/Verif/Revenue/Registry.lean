import Verif.Lib.KV
import Verif.VM.World
/-!
# The registry of the revenue module

Contracts whose deployers receive a share of the fees (helios-chain/x/revenue/v1). Bech32 texts are identified with the addresses they stand for; events and
the gas for deriving addresses are left out.
-/
namespace Revenue
open VM

/-- `Revenue` (x/revenue/v1/types/revenue.go 15-31): an empty withdrawer stands for the deployer. -/
structure Entry where
  deployer : Addr
  withdrawer : Option Addr
deriving DecidableEq

/-- The store (types/keys.go 22-40): the entries by contract, and the two indexes with keys (account, contract). -/
structure Registry where
  entries : List (Addr × Entry) := []
  byDeployer : List ((Addr × Addr) × Unit) := []
  byWithdrawer : List ((Addr × Addr) × Unit) := []

/-- `Params` (types/params.go 13-51): the share is a decimal with 18 places. -/
structure Params where
  enabled : Bool
  share : Nat
deriving DecidableEq

/-- What the module asks of the EVM keeper: does the account exist, and has it code (`GetAccountWithoutBalance`, `IsContract`); and `crypto.CreateAddress`. -/
structure Accounts where
  exist : Addr → Bool
  contract : Addr → Bool
  createAddr : Addr → Nat → Addr

/-- `PostContractCreation` (keeper/evm_hooks.go 130-153). The comment in the code says that the same address is not stored twice, but it is. -/
def postCreation (p : Params) (r : Registry) (contract deployer : Addr) : Registry :=
  if !p.enabled || p.share == 0 then r
  else if (KV.get r.entries contract).isSome then r
  else { r with
    entries := KV.set r.entries contract ⟨deployer, some deployer⟩
    byDeployer := KV.set r.byDeployer (deployer, contract) () }

/-- The chain of addresses that `RegisterRevenue` derives (keeper/msg_server.go 81-94). -/
def derive (createAddr : Addr → Nat → Addr) (a : Addr) : List Nat → Addr
  | [] => a
  | n :: ns => derive createAddr (createAddr a n) ns

/-- The withdrawer that `RegisterRevenue` stores (msg_server.go 69-72). -/
def chosen (deployer : Addr) : Option Addr → Option Addr
  | none => none
  | some w => if w = deployer then none else some w

/-- `RegisterRevenue` (msg_server.go 23-139); `none` is an error. -/
def register (p : Params) (acc : Accounts) (r : Registry) (contract deployer : Addr) (withdrawer : Option Addr) (nonces : List Nat) : Option Registry :=
  if p.enabled = false then none
  else if (KV.get r.entries contract).isSome then none
  else if acc.exist deployer = false ∨ acc.contract deployer = true then none
  else if acc.exist contract = false ∨ acc.contract contract = false then none
  else if contract ≠ derive acc.createAddr deployer nonces then none
  else some {
    entries := KV.set r.entries contract ⟨deployer, chosen deployer withdrawer⟩
    byDeployer := KV.set r.byDeployer (deployer, contract) ()
    byWithdrawer := match chosen deployer withdrawer with
      | none => r.byWithdrawer
      | some w => KV.set r.byWithdrawer (w, contract) () }

/-- Deletion from and insertion into the index of withdrawers (msg_server.go 183-196). -/
def dropIndex (l : List ((Addr × Addr) × Unit)) (w : Option Addr) (c : Addr) : List ((Addr × Addr) × Unit) :=
  match w with
  | none => l
  | some w => KV.del l (w, c)
def addIndex (l : List ((Addr × Addr) × Unit)) (w : Option Addr) (c : Addr) : List ((Addr × Addr) × Unit) :=
  match w with
  | none => l
  | some w => KV.set l (w, c) ()

/-- `UpdateRevenue` (msg_server.go 144-217). -/
def update (p : Params) (r : Registry) (contract deployer : Addr) (withdrawer : Option Addr) : Option Registry :=
  if p.enabled = false then none
  else match KV.get r.entries contract with
    | none => none
    | some e =>
      if deployer ≠ e.deployer then none
      else if chosen e.deployer withdrawer = e.withdrawer then none
      else some { r with
        entries := KV.set r.entries contract { e with withdrawer := chosen e.deployer withdrawer }
        byWithdrawer := addIndex (dropIndex r.byWithdrawer e.withdrawer contract) (chosen e.deployer withdrawer) contract }

/-- `CancelRevenue` (msg_server.go 220-275). -/
def cancel (p : Params) (r : Registry) (contract deployer : Addr) : Option Registry :=
  if p.enabled = false then none
  else match KV.get r.entries contract with
    | none => none
    | some e =>
      if deployer ≠ e.deployer then none
      else some {
        entries := KV.del r.entries contract
        byDeployer := KV.del r.byDeployer (e.deployer, contract)
        byWithdrawer := dropIndex r.byWithdrawer e.withdrawer contract }

/-- Who is paid for a contract (evm_hooks.go 78-88; revenue.go 45-53). -/
def payee (r : Registry) (contract : Addr) : Option Addr := (KV.get r.entries contract).map (fun e => e.withdrawer.getD e.deployer)

/-- `DeveloperShares.MulInt(txFee).TruncateInt()` (evm_hooks.go 91-92). -/
def portion (share fee : Nat) : Nat := share * fee / 10 ^ 18

/-- `InitGenesis` (genesis.go 15-40) for one entry. -/
def initEntry (r : Registry) (e : Addr × Entry) : Registry where
  entries := KV.set r.entries e.1 e.2
  byDeployer := KV.set r.byDeployer (e.2.deployer, e.1) ()
  byWithdrawer := addIndex r.byWithdrawer e.2.withdrawer e.1

/-- `InitGenesis` from the list that `ExportGenesis` (genesis.go 43-48) gives. -/
def initGenesis (l : List (Addr × Entry)) : Registry := l.foldl initEntry {}

/-- What can happen to the registry: a contract is created by a transaction of `deployer` with this nonce (x/evm/keeper/state_transition.go 370-375), and the messages.
The parameters of the module and the accounts may differ each time. -/
inductive Op where
  | created (p : Params) (deployer : Addr) (nonce : Nat)
  | register (p : Params) (exist contract : Addr → Bool) (signer target : Addr) (withdrawer : Option Addr) (nonces : List Nat)
  | update (p : Params) (signer target : Addr) (withdrawer : Option Addr)
  | cancel (p : Params) (signer target : Addr)

/-- One operation; a message that fails changes nothing. -/
def step (createAddr : Addr → Nat → Addr) (r : Registry) : Op → Registry
  | .created p d n => postCreation p r (createAddr d n) d
  | .register p ex co d c w ns => (register p ⟨ex, co, createAddr⟩ r c d w ns).getD r
  | .update p d c w => (update p r c d w).getD r
  | .cancel p d c => (cancel p r c d).getD r

def run (createAddr : Addr → Nat → Addr) (r : Registry) (ops : List Op) : Registry := ops.foldl (step createAddr) r

end Revenue
