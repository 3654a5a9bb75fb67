import Verif.Lib.KV
import Verif.Lib.Sort
/-!
# Registration of orchestrators and their fees

A validator registers with a bridge by naming an orchestrator account, which then votes and signs on its behalf, and an Ethereum address whose
signatures count for it (helios-chain/x/hyperion/keeper/msg_server_helios.go 29-272). Stored are the validator of each orchestrator, the address of
each validator, the validator of each address, and the fee a validator asks for (keeper.go 598-802).

One bridge is modelled; the keys of different bridges are disjoint (C21). Accounts, validators and Ethereum addresses are all twenty bytes, and
one number stands for all three: a validator's address has the bytes of its account, and AnyToHexAddress of it is these bytes. (That helper
misreads some texts of accounts, which is another property; here the list of allowed orchestrators is a predicate on accounts.) A failed message
changes nothing. Left out: resetting a bridge by its initializer (msg_server_testnet.go), and events.
-/
namespace Hyperion.Orch

structure Reg where
  /-- KeyOrchestratorAddress: orchestrator to validator. -/
  orch : List (Nat × Nat)
  /-- EthAddressByValidatorKey: validator to Ethereum address. -/
  eth : List (Nat × Nat)
  /-- ValidatorByEthAddressKey: Ethereum address to validator. -/
  byEth : List (Nat × Nat)
  /-- FeeByValidatorKey. -/
  fees : List (Nat × Nat)
  /-- The two fees in the data of an orchestrator (orchestrator_data.go); other fields of the data are left out. -/
  data : List (Nat × (Int × Int))
  /-- Validators of the staking module. -/
  vals : Nat → Bool
  /-- Orchestrators on the list of the bridge; all, if there is no list. -/
  allowed : Nat → Bool

def init : Reg := { orch := [], eth := [], byEth := [], fees := [], data := [], vals := fun _ => false, allowed := fun _ => true }

/-- The checks both kinds of registration have (msg_server_helios.go 46-70, 128-152). -/
def mayRegister (r : Reg) (v o : Nat) : Bool :=
  r.vals v && (KV.get r.orch o).isNone && (KV.get r.eth v).isNone && r.allowed o

/-- SetOrchestratorValidator and SetEthAddressForValidator (keeper.go 598-604, 635-642). -/
def link (r : Reg) (v o e : Nat) : Reg :=
  { r with orch := KV.set r.orch o v, eth := KV.set r.eth v e, byEth := KV.set r.byEth e v }

/-- SetOrchestratorAddresses (msg_server_helios.go 29-105): any address can be given; data are made if there are none. -/
def register (r : Reg) (v o e : Nat) : Reg :=
  if mayRegister r v o then
    { link r v o e with data := if (KV.get r.data o).isNone then KV.set r.data o (0, 0) else r.data }
  else r

/-- SetOrchestratorAddressesWithFee (msg_server_helios.go 107-198): the Ethereum address is that of the validator, whatever the message says. The fee is
stored as the bytes of its magnitude (keeper.go 660-667). `bond` says that both fees are in the right denomination. -/
def registerFee (r : Reg) (v o : Nat) (f b : Int) (bond : Bool) : Reg :=
  if bond && mayRegister r v o then
    { link r v o v with fees := KV.set r.fees v f.natAbs, data := KV.set r.data o (f, b) }
  else r

/-- UpdateOrchestratorAddressesFee (msg_server_helios.go 200-232): the data are looked up under the account of the validator. -/
def updateFee (r : Reg) (v : Nat) (f b : Int) (bond : Bool) : Reg :=
  if (KV.get r.fees v).isSome && bond && (KV.get r.data v).isSome then
    { r with fees := KV.set r.fees v f.natAbs, data := KV.set r.data v (f, b) }
  else r

/-- DeleteOrchestratorAddressesFee (msg_server_helios.go 234-252). -/
def deleteFee (r : Reg) (v : Nat) : Reg := { r with fees := KV.del r.fees v }

/-- UnSetOrchestratorAddresses (msg_server_helios.go 254-272): removes the orchestrator with the sender's account, the sender's address, and the
validator of the address in the message. -/
def unset (r : Reg) (v e : Nat) : Reg :=
  { r with orch := KV.del r.orch v, eth := KV.del r.eth v, byEth := KV.del r.byEth e, fees := KV.del r.fees v }

/-- Messages, with their sender first, and changes outside: validators come and go, and the list of orchestrators changes. -/
inductive Op where
  | register (v o e : Nat)
  | registerFee (v o : Nat) (f b : Int) (bond : Bool)
  | updateFee (v : Nat) (f b : Int) (bond : Bool)
  | deleteFee (v : Nat)
  | unset (v e : Nat)
  | setVal (v : Nat) (b : Bool)
  | setAllowed (l : Nat → Bool)

def step (r : Reg) : Op → Reg
  | .register v o e => register r v o e
  | .registerFee v o f b bond => registerFee r v o f b bond
  | .updateFee v f b bond => updateFee r v f b bond
  | .deleteFee v => deleteFee r v
  | .unset v e => unset r v e
  | .setVal v b => { r with vals := fun w => if w = v then b else r.vals w }
  | .setAllowed l => { r with allowed := l }

def run (r : Reg) : List Op → Reg
  | [] => r
  | op :: ops => run (step r op) ops

/-- The loop of GetLowestFeeValidator (keeper.go 706-717): the least fee so far, `-1` at first, and whose it is. -/
def lowLoop (best : Int) (val : Option Nat) : List (Nat × Nat) → Option Nat
  | [] => val
  | (v, f) :: l => if best = -1 ∨ (f : Int) < best then lowLoop f (some v) l else lowLoop best val l

/-- GetLowestFeeValidator (keeper.go 695-720); the iterator goes by key. -/
def lowest (r : Reg) : Option Nat := lowLoop (-1) none (StableSort.sortBy (fun a b => decide (a.1 ≤ b.1)) r.fees)

/-- The check of fees in SendToChain (msg_server_hyperion.go 152-167), for fees in the right denomination. Bridges have the number of their
chain (msg_server_helios.go 318-320). -/
def sendOk (r : Reg) (offer : Int) : Bool :=
  match lowest r with
  | none => false
  | some v =>
    match KV.get r.fees v with
    | none => false
    | some f => !decide (offer < (f : Int))

/-- The orchestrator of a validator in the listing: of several, the one with the greatest key, whose entry is written last
(keeper.go 1140-1148). -/
def orchOf (m : List (Nat × Nat)) (v : Nat) : Option Nat := ((m.filter (fun x => decide (x.2 = v))).map (·.1)).max?

structure Entry where
  hid : Nat
  val : Nat
  orch : Nat
  eth : Nat
deriving DecidableEq

/-- GetOrchestratorAddresses (keeper.go 1106-1172): `none` is the panic. The number of the bridge is not filled in. Not modelled is the order of the
listing. -/
def listing (orch : List (Nat × Nat)) : List (Nat × Nat) → Option (List Entry)
  | [] => some []
  | (v, e) :: l =>
    match orchOf orch v, listing orch l with
    | some o, some es => some ({ hid := 0, val := v, orch := o, eth := e } :: es)
    | _, _ => none

/-- ExportGenesis and InitGenesis for registrations (genesis.go 151-165, 187, 229): what bridge `h` has after its listing was
imported. Fees are not in the export. -/
def imported (h : Nat) : List Entry → Reg → Reg
  | [], r => r
  | x :: l, r => imported h l (if x.hid = h then link r x.val x.orch x.eth else r)

end Hyperion.Orch
