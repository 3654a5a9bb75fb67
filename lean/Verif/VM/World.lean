import Verif.VM.Gas
import Verif.VM.SStore
import Verif.Lib.KV
/-!
# The state the virtual machine works on

Models the interface that helios-chain/x/evm/statedb/statedb.go 130-480 and state_object.go 130-251 give to the interpreter, as a value: taking a
snapshot is keeping the value and reverting is going back to it (that the journal does this is the subject of `Verif/EVM`).
-/
namespace VM

/-- An account (state_object.go 72-91): nonce, balance, code, slots written in this transaction, and the mark of `Suicide`. -/
structure Acct where
  nonce : Nat := 0
  balance : Int := 0
  code : List UInt8 := []
  dirty : List (Word × Word) := []
  suicided : Bool := false
deriving DecidableEq

/-- A log entry. -/
structure LogEntry where
  address : Addr
  topics : List Word
  data : List UInt8
deriving DecidableEq

/-- The state: accounts, storage at the start of the transaction, access list, refund counter, logs. `burnt` is not in the code: it counts what is lost
when a contract destroys itself in favour of itself. -/
structure World where
  accts : List (Addr × Acct)
  store : Addr → Word → Word
  warmA : Addr → Bool
  warmS : Addr → Word → Bool
  refund : Nat
  logs : List LogEntry
  burnt : Int

namespace World

/-- `getStateObject` (statedb.go 257-271). -/
def acct (w : World) (a : Addr) : Option Acct := KV.get w.accts a

/-- `Exist`, `Empty` (statedb.go 160-169). -/
def exist (w : World) (a : Addr) : Bool := (w.acct a).isSome
def empty (w : World) (a : Addr) : Bool :=
  match w.acct a with
  | none => true
  | some c => c.nonce == 0 && c.balance == 0 && c.code == []

/-- `GetBalance`, `GetNonce`, `GetCode` (statedb.go 172-216). -/
def balance (w : World) (a : Addr) : Int := ((w.acct a).map (·.balance)).getD 0
def nonce (w : World) (a : Addr) : Nat := ((w.acct a).map (·.nonce)).getD 0
def code (w : World) (a : Addr) : List UInt8 := ((w.acct a).map (·.code)).getD []

/-- `GetCommittedState`, `GetState` (statedb.go 218-233, state_object.go 218-234). -/
def committed (w : World) (a : Addr) (k : Word) : Word := if w.exist a then w.store a k else 0#256
def state (w : World) (a : Addr) (k : Word) : Word :=
  match w.acct a with
  | none => 0#256
  | some c => (KV.get c.dirty k).getD (w.store a k)

/-- `HasSuicided` (statedb.go 241-247). -/
def suicided (w : World) (a : Addr) : Bool := ((w.acct a).map (·.suicided)).getD false

/-- Change of one account, created if it does not exist (`getOrNewStateObject`, statedb.go 274-280). -/
def modify (w : World) (a : Addr) (f : Acct → Acct) : World := { w with accts := KV.set w.accts a (f ((w.acct a).getD {})) }

/-- `AddBalance`, `SubBalance` (statedb.go 360-373). -/
def addBalance (w : World) (a : Addr) (v : Int) : World := w.modify a (fun c => { c with balance := c.balance + v })
def subBalance (w : World) (a : Addr) (v : Int) : World := w.modify a (fun c => { c with balance := c.balance - v })

/-- `SetNonce`, `SetCode`, `SetState` (statedb.go 376-397). -/
def setNonce (w : World) (a : Addr) (n : Nat) : World := w.modify a (fun c => { c with nonce := n })
def setCode (w : World) (a : Addr) (code : List UInt8) : World := w.modify a (fun c => { c with code := code })
def setState (w : World) (a : Addr) (k v : Word) : World := w.modify a (fun c => { c with dirty := KV.set c.dirty k v })

/-- `CreateAccount` (statedb.go 282-315): a new account that keeps the balance. -/
def createAccount (w : World) (a : Addr) : World := w.modify a (fun c => { balance := c.balance })

/-- `Transfer` (core/core/utils.go 18-21). -/
def transfer (w : World) (src dst : Addr) (v : Int) : World := (w.subBalance src v).addBalance dst v

/-- `Suicide` (statedb.go 404-418). -/
def suicide (w : World) (self : Addr) : World :=
  match w.acct self with
  | none => w
  | some c => { w with accts := KV.set w.accts self { c with balance := 0, suicided := true } }

/-- `opSelfdestruct` (instructions.go) without the check for static calls: the balance goes to the beneficiary, then `Suicide`. What a contract sends to itself
is lost; the model counts it. -/
def selfdestruct (w : World) (self beneficiary : Addr) : World :=
  let b := w.balance self
  let w2 := (w.addBalance beneficiary b).suicide self
  if beneficiary = self then { w2 with burnt := w2.burnt + b } else w2

/-- `AddAddressToAccessList`, `AddSlotToAccessList` (statedb.go 447-469). -/
def warmAddr (w : World) (a : Addr) : World := { w with warmA := setAt w.warmA a true }
def warmSlot (w : World) (a : Addr) (k : Word) : World :=
  { w with warmA := setAt w.warmA a true, warmS := fun b j => if b = a ∧ j = k then true else w.warmS b j }

/-- `AddLog`. -/
def addLog (w : World) (l : LogEntry) : World := { w with logs := w.logs ++ [l] }

end World
end VM
