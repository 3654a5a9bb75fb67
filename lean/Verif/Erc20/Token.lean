import Verif.Lib.KV
/-!
# Coins as ERC-20 tokens

Every registered coin has an address at which a precompiled contract answers the ERC-20 methods (helios-chain/precompiles/erc20).
Balances are the bank's balances, allowances are the bank's `SendAuthorization`s kept by the authz module: one grant for each pair of
owner and spender, with a spend limit for each coin and one time of expiry for all of them.

Modelled: the five methods that change the state (tx.go, approve.go), the two that read it (query.go), the events, and what else may
happen to balances and grants: sends and grants by Cosmos messages, minting and burning, the passing of time. Left out: gas, the journal
of the EVM state (`Verif/EVM/Precompile.lean`), names, symbols and decimals.
-/
namespace Erc20Token

abbrev Addr := Nat
abbrev Denom := Nat

/-- What a spender was given by an owner for `MsgSend`: a `SendAuthorization` with a spend limit and a list of allowed recipients
(all when empty), or an authorisation of another type, such as the generic one. -/
inductive Auth where
  | send (limit : List (Denom × Nat)) (allow : List Addr)
  | generic
deriving DecidableEq, Repr

/-- A stored grant. `expiry` is absent when the grant does not expire. -/
structure Grant where
  auth : Auth
  expiry : Option Nat
deriving DecidableEq, Repr

/-- Logs of the token at `token` (events.go 22-93). -/
inductive Event where
  | transfer (token src dst : Addr) (n : Nat)
  | approval (token owner spender : Addr) (n : Nat)
deriving DecidableEq, Repr

/-- What the bank and the registry are set to: the address of the token of each coin, which coins may be sent, which accounts must not
receive, and how much of a balance is locked by vesting. -/
structure Cfg where
  tokenOf : Denom → Addr
  enabled : Denom → Bool
  blocked : Addr → Bool
  locked : Addr → Denom → Nat

/-- Balances, grants by (owner, spender), the time of the block, the log (newest last). -/
structure St where
  bal : Addr → Denom → Nat
  grants : List ((Addr × Addr) × Grant)
  now : Nat
  log : List Event

/-- `authzkeeper.GetAuthorization` behind `CheckAuthzExists` (authorization/types.go 137-153): a grant whose time of expiry lies before
the time of the block is as good as none. -/
def live (s : St) (owner spender : Addr) : Option Grant :=
  match KV.get s.grants (owner, spender) with
  | none => none
  | some g => match g.expiry with
    | none => some g
    | some e => if e < s.now then none else some g

/-- `SpendLimit.AmountOfNoDenomValidation` (query.go 226). -/
def amountOf (limit : List (Denom × Nat)) (d : Denom) : Nat := (KV.get limit d).getD 0

/-- GetAuthzExpirationAndAllowance (query.go 206-228): no live grant and a grant of another type are errors. -/
def authzAllowance (s : St) (d : Denom) (owner spender : Addr) : Option (List (Denom × Nat) × List Addr × Option Nat × Nat) :=
  match live s owner spender with
  | none => none
  | some g => match g.auth with
    | .generic => none
    | .send limit allow => some (limit, allow, g.expiry, amountOf limit d)

/-- The largest number of 256 bits, `abi.MaxUint256`. -/
def maxUint : Nat := 2 ^ 256 - 1

/-- Allowance (query.go 176-204). -/
def allowance (s : St) (d : Denom) (owner spender : Addr) : Nat :=
  if owner = spender then maxUint
  else match authzAllowance s d owner spender with
  | none => 0
  | some (_, _, _, n) => n

/-- BalanceOf (query.go 157-174). -/
def balanceOf (s : St) (d : Denom) (a : Addr) : Nat := s.bal a d

/-- Change one balance. -/
def setBal (b : Addr → Denom → Nat) (a : Addr) (d : Denom) (n : Nat) : Addr → Denom → Nat :=
  fun a' d' => if a' = a ∧ d' = d then n else b a' d'

/-- The bank's `MsgSend` for one coin (cosmos-sdk x/bank, called from tx.go 93-94 and through the router in tx.go 101): positive amount,
coin enabled for sending, recipient not blocked, unlocked balance large enough. -/
def bankSend (cfg : Cfg) (s : St) (src dst : Addr) (d : Denom) (n : Nat) : Option St :=
  if n = 0 then none
  else if cfg.enabled d = false then none
  else if cfg.blocked dst then none
  else if s.bal src d < cfg.locked src d + n then none
  else
    let b := setBal s.bal src d (s.bal src d - n)
    some { s with bal := setBal b dst d (b dst d + n) }

/-- `authzkeeper.SaveGrant`: a time of expiry must lie after the time of the block. -/
def saveGrant (s : St) (owner spender : Addr) (g : Grant) : Option St :=
  match g.expiry with
  | none => some { s with grants := KV.set s.grants (owner, spender) g }
  | some e => if e ≤ s.now then none else some { s with grants := KV.set s.grants (owner, spender) g }

/-- `authzkeeper.DeleteGrant` for a grant that exists. -/
def deleteGrant (s : St) (owner spender : Addr) : St := { s with grants := KV.del s.grants (owner, spender) }

/-- `Coins.IsZero`. -/
def isZero (limit : List (Denom × Nat)) : Bool := limit.all (fun e => e.2 == 0)

/-- `Coins.SafeSub` of one coin: coins that reach zero are dropped; absent when the limit is too small. -/
def limitSub (limit : List (Denom × Nat)) (d : Denom) (n : Nat) : Option (List (Denom × Nat)) :=
  if amountOf limit d < n then none
  else if amountOf limit d = n then some (KV.del limit d)
  else some (KV.set limit d (amountOf limit d - n))

/-- What `DispatchActions` does with the grant after `SendAuthorization.Accept` (cosmos-sdk x/bank/types/send_authorization.go and
x/authz/keeper): the limit is lowered, the recipient must be allowed, an exhausted grant is deleted, another one is rewritten with its
time of expiry unchanged. -/
def spend (s : St) (owner spender dst : Addr) (d : Denom) (n : Nat) (limit : List (Denom × Nat)) (allow : List Addr) (expiry : Option Nat) :
    Option St :=
  match limitSub limit d n with
  | none => none
  | some left =>
    if allow ≠ [] ∧ dst ∉ allow then none
    else if isZero left then some (deleteGrant s owner spender)
    else some { s with grants := KV.set s.grants (owner, spender) ⟨.send left allow, expiry⟩ }

/-- `authzkeeper.DispatchActions` for one `MsgSend` of one coin. A generic authorisation accepts everything. -/
def dispatch (cfg : Cfg) (s : St) (owner spender dst : Addr) (d : Denom) (n : Nat) : Option St :=
  match live s owner spender with
  | none => none
  | some g => match g.auth with
    | .generic => bankSend cfg s owner dst d n
    | .send limit allow => (spend s owner spender dst d n limit allow g.expiry).bind (fun s' => bankSend cfg s' owner dst d n)

/-- Add a log (events.go). -/
def emit (s : St) (e : Event) : St := { s with log := s.log ++ [e] }

/-- The transfer without its events (tx.go 77-108): the owner sends by the bank, another caller needs a live grant and goes through the
authz module. -/
def move (cfg : Cfg) (s : St) (d : Denom) (caller src dst : Addr) (n : Nat) : Option St :=
  if n = 0 then none
  else if caller = src then bankSend cfg s src dst d n
  else match authzAllowance s d src caller with
  | none => none
  | some _ => dispatch cfg s src caller dst d n

/-- Transfer (tx.go 31-47, 66-125). -/
def transfer (cfg : Cfg) (s : St) (d : Denom) (caller dst : Addr) (n : Nat) : Option St :=
  (move cfg s d caller caller dst n).map (fun s' => emit s' (.transfer (cfg.tokenOf d) caller dst n))

/-- The allowance named in the event of `transferFrom` (tx.go 127-134). -/
def newAllowance (s : St) (d : Denom) (caller src : Addr) (n : Nat) : Nat :=
  if caller = src then maxUint else allowance s d src caller - n

/-- TransferFrom (tx.go 49-64, 66-141). -/
def transferFrom (cfg : Cfg) (s : St) (d : Denom) (caller src dst : Addr) (n : Nat) : Option St :=
  (move cfg s d caller src dst n).map (fun s' =>
    emit (emit s' (.transfer (cfg.tokenOf d) src dst n)) (.approval (cfg.tokenOf d) src caller (newAllowance s d caller src n)))

/-- `cmn.DefaultExpirationDuration`: one year of 365 days in seconds (common/types.go). -/
def year : Nat := 365 * 24 * 3600

/-- createAuthorization (approve.go 221-236): replaces whatever is stored. -/
def createAuth (s : St) (d : Denom) (owner spender : Addr) (n : Nat) : Option St :=
  saveGrant s owner spender ⟨.send [(d, n)] [], some (s.now + year)⟩

/-- updateAuthorization (approve.go 238-245): sets the limit of one coin, keeps the rest and the time of expiry. -/
def updateAuth (s : St) (d : Denom) (owner spender : Addr) (n : Nat) (limit : List (Denom × Nat)) (allow : List Addr)
    (expiry : Option Nat) : Option St :=
  saveGrant s owner spender ⟨.send (KV.set limit d n) allow, expiry⟩

/-- removeSpendLimitOrDeleteAuthorization (approve.go 247-275): an error when the coin has no limit. -/
def removeLimit (s : St) (d : Denom) (owner spender : Addr) (limit : List (Denom × Nat)) (allow : List Addr) (expiry : Option Nat) :
    Option St :=
  match KV.get limit d with
  | none => none
  | some _ =>
    if isZero (KV.del limit d) then some (deleteGrant s owner spender)
    else saveGrant s owner spender ⟨.send (KV.del limit d) allow, expiry⟩

/-- The change made by `approve` (approve.go 52-77), for an amount that is not negative. -/
def approveChange (s : St) (d : Denom) (owner spender : Addr) (n : Nat) : Option St :=
  if spender = owner then none
  else match live s owner spender with
  | none => if n = 0 then some s else createAuth s d owner spender n
  | some g => match g.auth with
    | .generic => none
    | .send limit allow =>
      if n = 0 then removeLimit s d owner spender limit allow g.expiry else updateAuth s d owner spender n limit allow g.expiry

/-- Approve (approve.go 33-89). The event names the token itself as owner (line 84). -/
def approve (cfg : Cfg) (s : St) (d : Denom) (caller spender : Addr) (n : Nat) : Option St :=
  (approveChange s d caller spender n).map (fun s' => emit s' (.approval (cfg.tokenOf d) (cfg.tokenOf d) spender n))

/-- IncreaseAllowance (approve.go 91-148, 277-301): an error for zero and for a sum of more than 256 bits. -/
def increaseAllowance (cfg : Cfg) (s : St) (d : Denom) (caller spender : Addr) (n : Nat) : Option St :=
  if spender = caller then none
  else if n = 0 then none
  else match live s caller spender with
  | none => (createAuth s d caller spender n).map (fun s' => emit s' (.approval (cfg.tokenOf d) (cfg.tokenOf d) spender n))
  | some g => match g.auth with
    | .generic => none
    | .send limit allow =>
      if maxUint < amountOf limit d + n then none
      else (updateAuth s d caller spender (amountOf limit d + n) limit allow g.expiry).map
        (fun s' => emit s' (.approval (cfg.tokenOf d) (cfg.tokenOf d) spender (amountOf limit d + n)))

/-- The change made by `decreaseAllowance` on a grant (approve.go 186-207, 303-331). -/
def decreaseChange (s : St) (d : Denom) (owner spender : Addr) (n : Nat) (limit : List (Denom × Nat)) (allow : List Addr)
    (expiry : Option Nat) : Option St :=
  if n < amountOf limit d then updateAuth s d owner spender (amountOf limit d - n) limit allow expiry
  else if n = amountOf limit d then removeLimit s d owner spender limit allow expiry
  else none

/-- DecreaseAllowance (approve.go 150-219): an error for zero, without a grant, and for more than the allowance. -/
def decreaseAllowance (cfg : Cfg) (s : St) (d : Denom) (caller spender : Addr) (n : Nat) : Option St :=
  if spender = caller then none
  else if n = 0 then none
  else match authzAllowance s d caller spender with
  | none => none
  | some (limit, allow, expiry, old) =>
    (decreaseChange s d caller spender n limit allow expiry).map
      (fun s' => emit s' (.approval (cfg.tokenOf d) (cfg.tokenOf d) spender (old - n)))

/-- The methods that change the state (erc20.go 166-178). -/
inductive Method where
  | transfer (dst : Addr) (n : Nat)
  | transferFrom (src dst : Addr) (n : Nat)
  | approve (spender : Addr) (n : Nat)
  | increase (spender : Addr) (n : Nat)
  | decrease (spender : Addr) (n : Nat)
deriving DecidableEq, Repr

/-- The number in the call data. -/
def Method.amount : Method → Nat
  | .transfer _ n => n
  | .transferFrom _ _ n => n
  | .approve _ n => n
  | .increase _ n => n
  | .decrease _ n => n

/-- HandleMethod (erc20.go 180-218). -/
def handle (cfg : Cfg) (s : St) (d : Denom) (caller : Addr) : Method → Option St
  | .transfer dst n => transfer cfg s d caller dst n
  | .transferFrom src dst n => transferFrom cfg s d caller src dst n
  | .approve spender n => approve cfg s d caller spender n
  | .increase spender n => increaseAllowance cfg s d caller spender n
  | .decrease spender n => decreaseAllowance cfg s d caller spender n

/-- A call of the token of coin `d`. Call data holds numbers of 256 bits; the failure of a call undoes what it did. -/
def call (cfg : Cfg) (s : St) (d : Denom) (caller : Addr) (m : Method) : Option St :=
  if maxUint < m.amount then none else handle cfg s d caller m

/-- What may happen: calls of tokens; Cosmos messages of owners and spenders (bank `MsgSend`; authz `MsgGrant`, `MsgRevoke`, `MsgExec`);
minting and burning by modules; a later time of the block; the removal of a grant that has expired, by the authz module. -/
inductive Op where
  | call (d : Denom) (caller : Addr) (m : Method)
  | send (src dst : Addr) (d : Denom) (n : Nat)
  | grant (owner spender : Addr) (g : Grant)
  | revoke (owner spender : Addr)
  | exec (owner spender dst : Addr) (d : Denom) (n : Nat)
  | mint (a : Addr) (d : Denom) (n : Nat)
  | burn (a : Addr) (d : Denom) (n : Nat)
  | tick (seconds : Nat)
  | purge (owner spender : Addr)
deriving DecidableEq

/-- `Grant.ValidateBasic` and `SendAuthorization.ValidateBasic`: limits are positive, one for each coin. -/
def validGrant (g : Grant) : Bool := match g.auth with
  | .generic => true
  | .send limit _ => limit.all (fun e => decide (0 < e.2)) && decide (limit.map (·.1)).Nodup

/-- The removal of an expired grant from the queue. -/
def purge (s : St) (owner spender : Addr) : Option St :=
  match KV.get s.grants (owner, spender) with
  | none => none
  | some g => match g.expiry with
    | none => none
    | some e => if e ≤ s.now then some (deleteGrant s owner spender) else none

/-- One event; absent when it fails, which leaves everything as it was. -/
def step (cfg : Cfg) (s : St) : Op → Option St
  | .call d caller m => call cfg s d caller m
  | .send src dst d n => bankSend cfg s src dst d n
  | .grant owner spender g => if owner = spender ∨ validGrant g = false then none else saveGrant s owner spender g
  | .revoke owner spender => match KV.get s.grants (owner, spender) with
    | none => none
    | some _ => some (deleteGrant s owner spender)
  | .exec owner spender dst d n => if n = 0 then none else if owner = spender then bankSend cfg s owner dst d n else dispatch cfg s owner spender dst d n
  | .mint a d n => some { s with bal := setBal s.bal a d (s.bal a d + n) }
  | .burn a d n => if s.bal a d < n then none else some { s with bal := setBal s.bal a d (s.bal a d - n) }
  | .tick t => some { s with now := s.now + t }
  | .purge owner spender => purge s owner spender

/-- The state after an event. -/
def next (cfg : Cfg) (s : St) (o : Op) : St := (step cfg s o).getD s

/-- The state after a history. -/
def run (cfg : Cfg) (s : St) (os : List Op) : St := os.foldl (next cfg) s

end Erc20Token
