import Verif.Vesting.Schedule
/-!
# Vesting accounts on the chain: messages, delegations and governance

Model of /repo/helios-chain/x/vesting/keeper (msg_server.go, hooks.go, gov.go, utils.go), of the checks of the messages (types/msg.go) and of the delegation check of
/repo/helios-chain/x/staking/keeper/msg_server.go, on top of the account of `Schedule.lean`. At this commit the application (/repo/helios-chain/app/app.go) does not contain the
module x/vesting, while its staking module makes the check.

Simplifications. Addresses are numbers, and the texts of addresses are taken to be equal exactly if the addresses are. Coins are amounts of `n` denominations. The bank is modelled by its
transfers (which respect locked coins, denomination by denomination) and by delegation (which does not, and tells the account); staking only as an amount staked by each account.
A message that fails changes nothing. Gas, events and telemetry are left out.
-/
namespace Grant
open Vesting

/-- What is stored under an address: nothing, a plain account, an account of another type (a module's, another vesting account) or a vesting account with its funder. -/
inductive Kind (n : Nat) where
  | absent
  | plain
  | other
  | grant (funder : Nat) (a : Account n)

structure Env (n : Nat) where
  bond : Fin n
  authority : Nat
  pool : Nat
  blocked : Nat → Bool
  contract : Nat → Bool

structure State (n : Nat) where
  accs : Nat → Kind n
  bal : Nat → Coins n
  staked : Nat → Coins n
  noGov : Nat → Bool
  active : Nat → Bool
  now : Int

variable {n : Nat}

def upd {β : Type} (f : Nat → β) (a : Nat) (b : β) : Nat → β := fun x => if x = a then b else f x

/-- What the bank keeps locked: `LockedCoins` of the account. -/
def Kind.locked (k : Kind n) (t : Int) : Coins n :=
  match k with
  | .grant _ a => a.locked t
  | _ => Coins.zero

/-- The bank's `SendCoins`: for every denomination sent the locked coins must remain. -/
def send (s : State n) (src dst : Nat) (c : Coins n) : Option (State n) :=
  if (∀ i, c i = 0 ∨ c i + (s.accs src).locked s.now i ≤ s.bal src i) then
    let b := upd s.bal src ((s.bal src).sub c)
    some { s with bal := upd b dst ((b dst).add c) }
  else none

/-- `CreateClawbackVestingAccount` (msg_server.go 24-98), signed by the account that becomes one (tx.proto 55); the zero address is refused (msg.go 50-70). -/
def create (e : Env n) (s : State n) (signer funder : Nat) (enableGov : Bool) : Option (State n) :=
  if funder = 0 ∨ signer = 0 then none
  else if e.blocked signer then none
  else match s.accs signer with
    | .plain =>
      if e.contract signer then none
      else some { s with
        accs := upd s.accs signer (.grant funder ⟨-62135596800, 0, Coins.zero, [], [], Coins.zero⟩)
        noGov := if enableGov then s.noGov else upd s.noGov signer true }
    | _ => none

/-- The checks of `MsgFundVestingAccount` on the periods (msg.go 114-146). -/
def periodsOk (lockup vesting : List (Period n)) : Bool :=
  if lockup.any (fun p => decide (p.len < 1)) then false
  else if vesting.any (fun p => decide (p.len < 1)) then false
  else if (totalAmount lockup).isZero && (totalAmount vesting).isZero then false
  else if (!lockup.isEmpty) && (!vesting.isEmpty) && !(Coins.eq (totalAmount lockup) (totalAmount vesting)) then false
  else true

/-- `FundVestingAccount` (msg_server.go 111-180). The account is stored with the grant before the coins are sent. -/
def fund (e : Env n) (s : State n) (signer acct : Nat) (start : Int) (lockup vesting : List (Period n)) : Option (State n) :=
  if acct = 0 then none
  else if periodsOk lockup vesting = false then none
  else if e.blocked acct then none
  else match s.accs acct with
    | .grant funder a =>
      let lockup' := if !(totalAmount vesting).isZero && lockup.isEmpty then [⟨0, totalAmount vesting⟩] else lockup
      let vesting' := if !(totalAmount lockup').isZero && vesting.isEmpty then [⟨0, totalAmount lockup'⟩] else vesting
      if signer ≠ funder then none
      else match a.addGrant start lockup' vesting' (totalAmount vesting') with
        | none => none
        | some a' => send { s with accs := upd s.accs acct (.grant funder a') } signer acct (totalAmount vesting')
    | _ => none

/-- `transferClawback` (msg_server.go 384-421): the account becomes a plain one, then the coins are sent. -/
def takeBack (s : State n) (acct : Nat) (a : Account n) (dest : Nat) : Option (State n) :=
  send { s with accs := upd s.accs acct .plain, noGov := upd s.noGov acct false } acct dest (a.computeClawback s.now).2

/-- `Clawback` (msg_server.go 191-275). The empty destination is `none`. -/
def clawback (e : Env n) (s : State n) (signer acct : Nat) (dest : Option Nat) : Option (State n) :=
  if signer ≠ e.authority ∧ (s.active acct = true ∨ e.blocked (dest.getD signer) = true) then none
  else match s.accs acct with
    | .grant funder a =>
      if a.vesting.isEmpty && a.lockup.isEmpty then none
      else if signer = e.authority then
        if s.noGov acct then none else takeBack s acct a e.pool
      else if signer ≠ funder then none
      else takeBack s acct a (dest.getD signer)
    | _ => none

/-- `UpdateVestingFunder` (msg_server.go 285-345, msg.go 217-241). -/
def updateFunder (e : Env n) (s : State n) (signer acct new : Nat) : Option (State n) :=
  if new = 0 ∨ signer = new then none
  else if s.active acct then none
  else if e.blocked new then none
  else match s.accs acct with
    | .grant funder a => if signer ≠ funder then none else some { s with accs := upd s.accs acct (.grant new a) }
    | _ => none

/-- `ConvertVestingAccount` (msg_server.go 349-380), signed by the account (tx.proto 153). `GetLockedUpCoins` is the original amount less the unlocked coins
(clawback_vesting_account.go 182-184). -/
def convert (s : State n) (acct : Nat) : Option (State n) :=
  match s.accs acct with
  | .grant _ a =>
    if (a.unvested s.now).isZero = false then none
    else if (a.original.sub (a.unlocked s.now)).isZero = false then none
    else some { s with accs := upd s.accs acct .plain, noGov := upd s.noGov acct false }
  | _ => none

/-- One denomination's amount. -/
def coin (j : Fin n) (x : Nat) : Coins n := fun i => if i = j then x else 0

/-- `validateDelegationAmountNotUnvested` (x/staking/keeper/msg_server.go 62-114): the amount delegated, of whatever denomination, is compared with the balance of the bond
denomination less the unvested coins of the bond denomination. -/
def mayDelegate (e : Env n) (s : State n) (acct x : Nat) : Bool :=
  match s.accs acct with
  | .absent => false
  | .grant _ a => !decide (s.bal acct e.bond - a.unvested s.now e.bond < x)
  | _ => true

/-- A vesting account is told of delegated or returned coins: its delegated coins change, nothing else. -/
def Kind.track (k : Kind n) (fn : Coins n → Coins n) : Kind n :=
  match k with
  | .grant f a => .grant f { a with delegatedFree := fn a.delegatedFree }
  | k => k

def track (m : Nat → Kind n) (x : Nat) (fn : Coins n → Coins n) : Nat → Kind n := upd m x ((m x).track fn)

/-- `Delegate` and `CreateValidator` (x/staking/keeper/msg_server.go 35-57), then the bank's `DelegateCoins` and the account's `TrackDelegation`
(clawback_vesting_account.go 106-119). -/
def delegate (e : Env n) (s : State n) (acct : Nat) (j : Fin n) (x : Nat) : Option (State n) :=
  if mayDelegate e s acct x = false then none
  else if x = 0 ∨ s.bal acct j < x then none
  else some { s with
    bal := upd s.bal acct ((s.bal acct).sub (coin j x))
    staked := upd s.staked acct ((s.staked acct).add (coin j x))
    accs := track s.accs acct (fun c => c.add (coin j x)) }

/-- The end of an undelegation: `lost` of the coins were slashed. `TrackUndelegation` of the embedded account takes the returned coins from the delegated ones. -/
def undelegate (s : State n) (acct : Nat) (j : Fin n) (x lost : Nat) : Option (State n) :=
  if s.staked acct j < x + lost then none
  else some { s with
    bal := upd s.bal acct ((s.bal acct).add (coin j x))
    staked := upd s.staked acct ((s.staked acct).sub (coin j (x + lost)))
    accs := track s.accs acct (fun c => c.sub (coin j x)) }

/-- `AfterProposalDeposit` (hooks.go 46-118) of a proposal that takes back from `targets`; `enough` says that the deposit is not below the least one. The accounts are
marked one after the other; at the first that has opted out the marks of this call are removed. -/
def deposited (s : State n) (done : List Nat) : List Nat → State n
  | [] => s
  | a :: rest =>
    if s.noGov a then { s with active := fun x => if x ∈ done then false else s.active x }
    else deposited { s with active := upd s.active a true } (a :: done) rest

/-- What can happen. `cancel` is governance's own cancellation of a proposal by its proposer: the interface of the hooks has no method for it (hooks.go), so nothing happens here. -/
inductive Op (n : Nat) where
  | create (signer funder : Nat) (enableGov : Bool)
  | fund (signer acct : Nat) (start : Int) (lockup vesting : List (Period n))
  | clawback (signer acct : Nat) (dest : Option Nat)
  | updateFunder (signer acct new : Nat)
  | convert (acct : Nat)
  | send (src dst : Nat) (c : Coins n)
  | delegate (acct : Nat) (j : Fin n) (x : Nat)
  | undelegate (acct : Nat) (j : Fin n) (x lost : Nat)
  | receive (acct : Nat) (c : Coins n)
  | wait (d : Nat)
  | deposited (targets : List Nat) (enough : Bool)
  | ended (targets : List Nat)
  | cancel (targets : List Nat)

/-- What the message or event gives; `none` if it is refused. `ended` is `AfterProposalVotingPeriodEnded` (hooks.go 151-185). -/
def act (e : Env n) (s : State n) : Op n → Option (State n)
  | .create p f g => create e s p f g
  | .fund p a t l v => fund e s p a t l v
  | .clawback p a d => clawback e s p a d
  | .updateFunder p a f => updateFunder e s p a f
  | .convert a => convert s a
  | .send a b c => send s a b c
  | .delegate a j x => delegate e s a j x
  | .undelegate a j x l => undelegate s a j x l
  | .receive a c => some { s with bal := upd s.bal a ((s.bal a).add c) }
  | .wait d => some { s with now := s.now + d }
  | .deposited ts enough => some (if enough then deposited s [] ts else s)
  | .ended ts => some { s with active := fun x => if x ∈ ts then false else s.active x }
  | .cancel _ => some s

def step (e : Env n) (s : State n) (op : Op n) : State n := (act e s op).getD s

def run (e : Env n) (s : State n) (ops : List (Op n)) : State n := ops.foldl (step e) s

end Grant
