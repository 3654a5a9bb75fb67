import Verif.Addr.Bech32
import Verif.Lib.KV

/-!
# Scheduled calls (`/repo/helios-chain/x/chronos`)

A *cron* is a contract call that an account schedules.  It has a wallet of its own, filled from
the owner's account, from which the fees are meant to be paid.  Modelled: the messages
`CreateCron`, `CreateCallBackConditionedCron`, `UpdateCron`, `CancelCron` (keeper/msg_server.go),
`StoreCronCallBackData` (called by the bridge and by the precompile) and the keeper functions
they use, with the indexes and the execution queue.

`EndBlock` (module.go 153-200) is commented out in the code, so the functions that charge and
execute crons (keeper.go 75-240, 640-830) are never called by the application: a block changes
nothing here, and that is how it is modelled.
-/

namespace Chronos
open Addr

/-- `uint64` values as `int64`: `int64(cron.GasLimit)`. -/
def toInt64 (g : Nat) : Int := if g < 2 ^ 63 then (g : Int) else (g : Int) - 2 ^ 64

/-- `id + 1` on `uint64`. -/
def bump (n : Nat) : Nat := if n + 1 < 2 ^ 64 then n + 1 else 0

/-- `types.Cron`.  `address` and `owner` are bech32 text.  Of the call itself only the contract is
kept: method, parameters and ABI play no part here. -/
structure Cron where
  id : Nat
  address : Str
  owner : Str
  contract : Str
  frequency : Nat
  next : Nat
  expiration : Nat
  gasLimit : Nat
  maxGasPrice : Int
  executed : Nat
  feesPaid : Int
  callback : Bool
  queueTs : Int
deriving DecidableEq, Repr

/-- The chain as the module sees it.  `bal` are the bank balances in the native coin, `accounts`
and `code` say which accounts exist and which have code.  `crons`, `archived`, `byAddress`,
`byOwner`, `queue`, `data`, `nextId`, `count` are the stores of the module (types/keys.go 23-44):
`queue` is the second index, from the gas price to the list of identifiers and times. -/
structure State where
  bal : List Nat → Nat
  accounts : List Nat → Bool
  code : List Nat → Bool
  height : Nat
  time : Nat
  crons : List (Nat × Cron)
  archived : List (Nat × Cron)
  byAddress : List (Str × Nat)
  byOwner : List (List Nat × Nat)
  queue : List (Nat × List (Nat × Nat))
  data : List (Nat × Nat)
  nextId : Option Nat
  count : Int

/-- Before anything was scheduled. -/
def State.init (bal : List Nat → Nat) (accounts code : List Nat → Bool) (height time : Nat) : State :=
  { bal, accounts, code, height, time, crons := [], archived := [], byAddress := [], byOwner := [],
    queue := [], data := [], nextId := none, count := 0 }

/-- `testnet.TESTNET_BLOCK_NUMBER_UPDATE_0` and `_1`, /repo/helios-chain/testnet/testnet.go. -/
def update0 : Nat := 34800
def update1 : Nat := 40600

/-- `StoreGetNextCronID`, keeper.go 1389-1407: the identifier to use. -/
def State.id (s : State) : Nat := s.nextId.getD 1

/-- The bank's `SendCoins` in the native coin; a negative amount panics in `sdk.NewCoin`.  Coins
that are locked in vesting accounts are left out. -/
def send (bal : List Nat → Nat) (src dst : List Nat) (amount : Int) : Option (List Nat → Nat) :=
  if amount < 0 then none
  else if bal src < amount.toNat then none
  else
    let b1 := fun a => if a = src then bal a - amount.toNat else bal a
    some (fun a => if a = dst then b1 a + amount.toNat else b1 a)

/-- `EvmKeeper.GetAccount(AnyToHexAddress(text)).Balance`; a missing account is a nil pointer. -/
def balanceOf (s : State) (text : Str) : Option Nat :=
  if s.accounts (anyToHex text) then some (s.bal (anyToHex text)) else none

/-- `CronInTransfer`, keeper.go 248-267.  The test on a negative balance never holds; nothing is
sent if the owner's balance is zero. -/
def inTransfer (s : State) (owner address : Str) (amount : Int) : Option (List Nat → Nat) :=
  match balanceOf s owner with
  | none => none
  | some b =>
    if 0 < b then
      match fromBech32 accHrp owner, fromBech32 accHrp address with
      | some o, some w => send s.bal o w amount
      | _, _ => none
    else some s.bal

/-- A request to create a cron, `MsgCreateCron` and `MsgCreateCallBackConditionedCron`. -/
structure Create where
  sender : Str
  owner : Str
  contract : Str
  frequency : Nat
  expiration : Nat
  gasLimit : Nat
  maxGasPrice : Int
  amount : Int
  callback : Bool

/-- `Validate`, types/tx.go 34-77.  The tests that the ABI and the method name are not empty are
left out. -/
def Create.valid (r : Create) : Bool :=
  (fromBech32 accHrp r.owner).isSome && r.contract.take 2 == str "0x" && r.contract.length == 42 &&
  (r.callback || (r.frequency != 0 && (r.expiration == 0 || decide (r.frequency < r.expiration))))

/-- The new record, msg_server.go 76-92 and 199-215.  The height is far from 2^64. -/
def Create.cron (r : Create) (id height : Nat) (address : Str) : Cron :=
  { id, address, owner := r.owner, contract := r.contract,
    frequency := if r.callback then 0 else r.frequency,
    next := if r.callback then height else height + r.frequency,
    expiration := r.expiration, gasLimit := r.gasLimit, maxGasPrice := r.maxGasPrice,
    executed := 0, feesPaid := 0, callback := r.callback, queueTs := 0 }

/-- `AddCron`, keeper.go 302-309. -/
def addCron (s : State) (c : Cron) : State :=
  { s with
    crons := KV.set s.crons c.id c
    byAddress := KV.set s.byAddress c.address c.id
    count := s.count + 1
    byOwner := if update1 < s.height then (anyToHex c.owner, c.id) :: s.byOwner else s.byOwner }

/-- The tests of `CreateCron` that a callback cron does not have: the target is a contract
(msg_server.go 53-57) and the deposit exceeds the highest fee (65-67). -/
def Create.checked (s : State) (r : Create) : Bool :=
  r.callback ||
  (s.accounts (anyToHex r.contract) && s.code (anyToHex r.contract) &&
    decide (r.maxGasPrice * toInt64 r.gasLimit < r.amount))

/-- `CreateCron` and `CreateCallBackConditionedCron`, msg_server.go 33-112 and 156-232.  `wallet`
is the address made from the identifier, `crypto.AddressHash("cron_<id>")`. -/
def create (wallet : Nat → List Nat) (s : State) (r : Create) : Option State :=
  if !r.valid then none
  else if r.owner ≠ r.sender then none
  else if (KV.get s.crons s.id).isSome then none
  else match balanceOf s r.owner with
    | none => none
    | some b =>
      if (b : Int) < r.amount then none
      else if !r.checked s then none
      else
        let w := wallet s.id
        let s1 := { s with
          nextId := some (bump s.id)
          accounts := fun a => if a = w then true else s.accounts a }
        match inTransfer s1 r.owner (accString w) r.amount with
        | none => none
        | some bal => some (addCron { s1 with bal } (r.cron s.id s.height (accString w)))

/-- `ExistsInCronQueue`, keeper.go 1226-1231. -/
def inQueue (s : State) (c : Cron) : Bool :=
  if update0 < s.height then decide (c.queueTs ≠ -1 ∧ c.queueTs ≠ 0) else decide (c.queueTs ≠ -1)

/-- The key of the queue, `GetFeeSecondIndexKey`, types/keys.go 104-115: `FillBytes` writes the
absolute value. -/
def priceKey (c : Cron) : Nat := c.maxGasPrice.natAbs

/-- `AppendToCronQueue`, keeper.go 1233-1246. -/
def appendQueue (s : State) (c : Cron) : State :=
  { s with
    queue := KV.set s.queue (priceKey c) ((KV.get s.queue (priceKey c)).getD [] ++ [(c.id, s.time)])
    crons := KV.set s.crons c.id { c with queueTs := s.time } }

/-- The list without the first entry of an identifier; none if there is no entry. -/
def dropId : Nat → List (Nat × Nat) → Option (List (Nat × Nat))
  | _, [] => none
  | id, e :: es => if e.1 = id then some es else match dropId id es with
    | none => none
    | some es' => some (e :: es')

/-- `RemoveFromCronQueue`, keeper.go 1248-1276; with an error nothing changes. -/
def removeQueue (s : State) (c : Cron) : State :=
  match KV.get s.queue (priceKey c) with
  | none => s
  | some ids => match dropId c.id ids with
    | none => s
    | some [] => { s with
        queue := KV.del s.queue (priceKey c)
        crons := KV.set s.crons c.id { c with queueTs := -1 } }
    | some ids' => { s with
        queue := KV.set s.queue (priceKey c) ids'
        crons := KV.set s.crons c.id { c with queueTs := -1 } }

/-- `StoreCronCallBackData`, keeper.go 1164-1179. -/
def callback (s : State) (id data : Nat) : State :=
  let s1 := { s with data := KV.set s.data id data }
  match KV.get s.crons id with
  | none => s1
  | some c => if inQueue s1 c then s1 else appendQueue s1 c

/-- A request to change a cron, `MsgUpdateCron`. -/
structure Update where
  sender : Str
  id : Nat
  frequency : Nat
  expiration : Nat
  gasLimit : Nat
  maxGasPrice : Int

/-- `UpdateCron`, msg_server.go 115-135. -/
def update (s : State) (r : Update) : Option State :=
  match KV.get s.crons r.id with
  | none => none
  | some c =>
    if c.owner ≠ r.sender then none
    else some { s with crons := KV.set s.crons c.id { c with
      frequency := r.frequency, expiration := r.expiration, gasLimit := r.gasLimit,
      maxGasPrice := r.maxGasPrice } }

/-- `CronBalance`, keeper.go 290-300. -/
def cronBalance (s : State) (c : Cron) : Nat := (balanceOf s c.address).getD 0

/-- `CronOutTransfer`, keeper.go 269-288, called with the balance just read. -/
def outTransfer (s : State) (c : Cron) : Option (List Nat → Nat) :=
  match fromBech32 accHrp c.address, fromBech32 accHrp c.owner with
  | some w, some o => send s.bal w o (cronBalance s c)
  | _, _ => none

/-- The records that `RemoveCron` changes, keeper.go 334-343. -/
def retire (s : State) (c : Cron) : State :=
  let s1 := if inQueue s c then removeQueue s c else s
  { s1 with
    crons := KV.del s1.crons c.id
    archived := KV.set s1.archived c.id c
    count := s1.count - 1 }

/-- `RemoveCron`, keeper.go 311-345. -/
def removeCron (s : State) (id : Nat) (owner : List Nat) : Option State :=
  match KV.get s.crons id with
  | none => none
  | some c =>
    if c.owner ≠ accString owner then none
    else if 0 < cronBalance s c then
      match outTransfer s c with
      | none => none
      | some bal => some (retire { s with bal } c)
    else some (retire s c)

/-- `CancelCron`, msg_server.go 138-155; `owner` is a field of the request. -/
def cancel (s : State) (sender owner : Str) (id : Nat) : Option State :=
  match KV.get s.crons id with
  | none => none
  | some c =>
    if c.owner ≠ sender then none
    else match fromBech32 accHrp owner with
      | none => none
      | some o => removeCron s id o

/-- What can happen.  `world` stands for everything else on the chain: it replaces balances,
accounts and code, and moves to a later block. -/
inductive Op where
  | create (r : Create)
  | callback (id data : Nat)
  | update (r : Update)
  | cancel (sender owner : Str) (id : Nat)
  | world (bal : List Nat → Nat) (accounts code : List Nat → Bool) (height time : Nat)

/-- One operation; a refused one changes nothing, because its transaction is rolled back. -/
def step (wallet : Nat → List Nat) (s : State) : Op → State
  | .create r => (create wallet s r).getD s
  | .callback id data => callback s id data
  | .update r => (update s r).getD s
  | .cancel sender owner id => (cancel s sender owner id).getD s
  | .world bal accounts code height time => { s with bal, accounts, code, height, time }

/-- A history. -/
def run (wallet : Nat → List Nat) (s : State) (ops : List Op) : State := ops.foldl (step wallet) s

end Chronos
