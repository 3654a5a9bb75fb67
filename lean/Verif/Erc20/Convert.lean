/-!
# Conversion between ERC-20 tokens and coins

`ConvertERC20` escrows tokens of a registered external contract and mints coins (helios-chain/x/erc20/keeper/msg_server.go 26-187);
`ConvertCoinNativeERC20` goes the other way (msg_server.go 196-260). One pair is modelled, with one denomination. The token
contract is arbitrary: it is given by what `balanceOf` answers and by what a call of `transfer` does to the whole world, which includes
what the contract does through precompiles while it runs.
-/
namespace Erc20.Convert

/-- The state of the token contract (and of anything else in the EVM), the coins of the pair's denomination by account, and their
supply. -/
structure World (σ : Type) where
  tok : σ
  coins : Nat → Nat
  supply : Nat

/-- A log: its topics (evm.go 245-258 looks at the first one). -/
abbrev Log := List Nat

/-- A token contract. `balanceOf` is called without committing (evm.go 219-242), so it cannot change anything; `none` is a failed call
or an answer that does not decode. `transfer w from to amount` is the call sent by `from`; `none` is a failed call or an answer that does
not decode; otherwise the world afterwards, the answer and the logs. -/
structure Token (σ : Type) where
  balanceOf : σ → Nat → Option Nat
  transfer : World σ → Nat → Nat → Nat → Option (World σ × Bool × List Log)

/-- The address of the erc20 module's account, `types.ModuleAddress`. -/
def moduleAddr : Nat := 0
/-- The hash of `Approval(address,address,uint256)` (evm.go 250-251). -/
def approvalSig : Nat := 1

/-- monitorApprovalEvent (evm.go 244-265): the answer is used only when no log is an approval. A log without topics makes
`log.Topics[0]` panic, which fails the message like an error. -/
def logsOk (logs : List Log) : Bool := logs.all (fun l => match l with
  | [] => false
  | t :: _ => t != approvalSig)

/-- Change the balance of one account. -/
def setCoins (c : Nat → Nat) (a n : Nat) : Nat → Nat := fun x => if x = a then n else c x

/-- Bank MintCoins and SendCoinsFromModuleToAccount (msg_server.go 134-141). The coins pass through the module's account. -/
def mintTo {σ : Type} (w : World σ) (a n : Nat) : World σ :=
  { w with coins := setCoins w.coins a (w.coins a + n), supply := w.supply + n }

/-- Bank SendCoinsFromAccountToModule (msg_server.go 217-219); `none` when the account has too little. -/
def escrowCoins {σ : Type} (w : World σ) (a n : Nat) : Option (World σ) :=
  if w.coins a < n then none
  else
    let c := setCoins w.coins a (w.coins a - n)
    some { w with coins := setCoins c moduleAddr (c moduleAddr + n) }

/-- Bank BurnCoins from the module's account (msg_server.go 251-254). -/
def burn {σ : Type} (w : World σ) (n : Nat) : Option (World σ) :=
  if w.coins moduleAddr < n then none
  else some { w with coins := setCoins w.coins moduleAddr (w.coins moduleAddr - n), supply := w.supply - n }

/-- The checks after the transfer into escrow, and the minting (msg_server.go 107-156). -/
def convertAfter {σ : Type} (t : Token σ) (w : World σ) (before receiver amount : Nat) : World σ × Bool × List Log → Option (World σ)
  | (w1, ret, logs) =>
    if ret = false then none
    else match t.balanceOf w1.tok moduleAddr with
    | none => none
    | some after =>
      if after ≠ before + amount then none
      else if (mintTo w1 receiver amount).coins receiver ≠ w.coins receiver + amount then none
      else if logsOk logs = false then none
      else some (mintTo w1 receiver amount)

/-- convertERC20IntoCoinsForNativeToken (msg_server.go 71-187) for an enabled pair and an allowed receiver; `none` is an error, after
which the message's changes are dropped. ValidateBasic asks for a positive amount (types/msg.go 58-60). -/
def convertERC20 {σ : Type} (t : Token σ) (w : World σ) (sender receiver amount : Nat) : Option (World σ) :=
  if amount = 0 then none
  else match t.balanceOf w.tok moduleAddr with
  | none => none
  | some before =>
    match t.transfer w sender moduleAddr amount with
    | none => none
    | some r => convertAfter t w before receiver amount r

/-- The checks after the transfer out of escrow, and the burning (msg_server.go 227-260). -/
def backAfter {σ : Type} (t : Token σ) (before receiver amount : Nat) : World σ × Bool × List Log → Option (World σ)
  | (w2, ret, logs) =>
    if ret = false then none
    else match t.balanceOf w2.tok receiver with
    | none => none
    | some after =>
      if after ≠ before + amount then none
      else match burn w2 amount with
      | none => none
      | some w3 => if logsOk logs = false then none else some w3

/-- ConvertCoinNativeERC20 (msg_server.go 196-260); `none` is an error. -/
def convertBack {σ : Type} (t : Token σ) (w : World σ) (sender receiver amount : Nat) : Option (World σ) :=
  if amount = 0 then some w
  else match t.balanceOf w.tok receiver with
  | none => none
  | some before =>
    match escrowCoins w sender amount with
    | none => none
    | some w1 =>
      match t.transfer w1 moduleAddr receiver amount with
      | none => none
      | some r => backAfter t before receiver amount r

/-- What can happen: a conversion message (also sent by an IBC transfer, x/ibc/transfer/keeper/msg_server.go 89-103); coins of the
pair arriving over IBC, after which the whole balance of the recipient is converted (ibc_callbacks.go 132-141); a failed or timed out IBC
transfer, after which the refunded amount is converted (ibc_callbacks.go 186-235); a transfer of coins; any other use of the EVM. -/
inductive Op (σ : Type) where
  | convert (sender receiver amount : Nat)
  | arrive (recipient : Nat)
  | refund (sender amount : Nat)
  | send (a b n : Nat)
  | use (f : σ → σ)

/-- A failed operation changes nothing. An error in OnRecvPacket gives an error acknowledgement and IBC core drops the changes. -/
def step {σ : Type} (t : Token σ) (w : World σ) : Op σ → World σ
  | .convert s r n => (convertERC20 t w s r n).getD w
  | .arrive r => (convertBack t w r r (w.coins r)).getD w
  | .refund s n => (convertBack t w s s n).getD w
  | .send a b n =>
    if w.coins a < n then w
    else
      let c := setCoins w.coins a (w.coins a - n)
      { w with coins := setCoins c b (c b + n) }
  | .use f => { w with tok := f w.tok }

def run {σ : Type} (t : Token σ) (w : World σ) : List (Op σ) → World σ
  | [] => w
  | op :: ops => run t (step t w op) ops

end Erc20.Convert
