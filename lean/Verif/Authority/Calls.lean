import Verif.Lib.KV
/-!
# For whom the precompiled contracts act

The contracts under helios-chain/precompiles turn calls of the EVM into Cosmos messages. A message names the account it acts for; a signed
Cosmos transaction could only carry it with that account's signature, but a contract call carries no signature: what the contracts look
at is the account that signed the Ethereum transaction (`evm.Origin`), the account that made the call (`contract.CallerAddress`: the
origin itself or a contract), and, in the staking contract, the grants kept by the authz module.

Modelled: for every method that changes the state of the staking, distribution, gov, hyperion, chronos, logos and erc20creator
contracts, the decision whether the call is admitted and the message it becomes; the staking grants with their limits, validators and
expiry. What messages do to the rest of the chain is a parameter (`Chain.exec`), so the theorems hold whatever they do. Left out: the ICS-20
contract, whose grants have another form; the vesting contract, which is not registered with the keeper; the ERC-20 contracts, see
`Verif/Erc20/Token.lean`; decoding of arguments; events, gas and the journal, see `Verif/EVM/Precompile.lean`.
-/
namespace Authority

abbrev Addr := Nat
abbrev Denom := Nat

/-- `sdk.Coin`. -/
structure Coin where
  denom : Denom
  amount : Nat
deriving DecidableEq, Repr

/-- The four kinds of messages the staking contract keeps grants for (staking/approve.go 20-29). -/
inductive Kind where
  | delegate | undelegate | redelegate | cancel
deriving DecidableEq, Repr

/-- What a grantee was given: a `StakeAuthorization` with its limit (`MaxTokens`, absent when unlimited), its allowed and its denied
validators, or an authorisation of another type. -/
inductive Auth where
  | stake (limit : Option Coin) (allow deny : List Addr)
  | generic
deriving DecidableEq, Repr

/-- A stored grant. `expiry` is absent when the grant does not expire. -/
structure Grant where
  auth : Auth
  expiry : Option Nat
deriving DecidableEq, Repr

/-- The messages the methods are turned into, with the account each acts for first. Texts, options, gas limits and the like are folded into
`body`.

* staking/tx.go: 41-159 `createValidator`, `editValidator`; 161-423 `delegate`, `undelegate`, `cancelUnbonding`; 425-450 `unjail`
* distribution/tx.go: 30-283
* gov/tx.go: 47-114 votes, 116-520 proposals
* hyperion/methods.go 37-489, chronos/methods.go 27-350, logos/methods.go 22-58, erc20creator/erc20creator.go 102-246 -/
inductive Msg where
  | createValidator (v : Addr) (self : Coin) (body : Nat)
  | editValidator (v : Addr) (body : Nat)
  | delegate (d v : Addr) (c : Coin)
  | undelegate (d v : Addr) (c : Coin)
  | cancelUnbonding (d v : Addr) (c : Coin) (height : Nat)
  | unjail (v : Addr)
  | claimRewards (d : Addr) (max : Nat)
  | setWithdrawAddress (d to : Addr)
  | withdrawReward (d v : Addr)
  | withdrawCommission (v : Addr)
  | fundCommunityPool (d : Addr) (c : Coin)
  | vote (a : Addr) (proposal body : Nat)
  | submitProposal (a : Addr) (deposit body : Nat)
  | sendToChain (a : Addr) (chain : Nat) (dest : Addr) (c : Coin) (fee : Nat)
  | cancelSendToChain (a : Addr) (chain id : Nat)
  | requestData (a callback : Addr) (body fee : Nat)
  | setOrchestrator (a orch : Addr) (id : Nat)
  | manageBridge (a : Addr) (body : Nat)
  | cron (a : Addr) (body deposit : Nat)
  | storeLogo (a : Addr) (body : Nat)
  | createToken (a : Addr) (d : Denom) (supply : Nat)
deriving DecidableEq, Repr

/-- What the calls need of the rest of the chain, whose state is a `W`: what a message does (absent when it is refused), the validators
that are not jailed (staking/approve.go 243-265), the coins that may be staked (`IsAssetWhitelisted`, staking/tx.go 176, 273), the coin
of the limits (`BondDenom`) and how long approvals last (`ApprovalExpiration`, one year). -/
structure Chain (W : Type) where
  exec : W → Msg → Option W
  active : W → List Addr
  listed : W → Denom → Bool
  bond : Denom
  lasts : Nat

/-- The time of the block, the staking grants by (granter, grantee, kind), and the rest. -/
structure St (W : Type) where
  now : Nat
  grants : List ((Addr × Addr × Kind) × Grant)
  world : W

variable {W : Type}

/-- `authzkeeper.GetAuthorization`, behind authorization/types.go 142-153 and 160-170: a grant whose time of expiry lies before the time of
the block is as good as none. -/
def live (s : St W) (granter grantee : Addr) (k : Kind) : Option Grant :=
  match KV.get s.grants (granter, grantee, k) with
  | none => none
  | some g => match g.expiry with
    | none => some g
    | some e => if e < s.now then none else some g

/-- `authzkeeper.SaveGrant`: a time of expiry must lie after the time of the block. -/
def saveGrant (s : St W) (granter grantee : Addr) (k : Kind) (g : Grant) : Option (St W) :=
  match g.expiry with
  | none => some { s with grants := KV.set s.grants (granter, grantee, k) g }
  | some e => if e ≤ s.now then none else some { s with grants := KV.set s.grants (granter, grantee, k) g }

/-- `authzkeeper.DeleteGrant`: an error when there is none. -/
def deleteGrant (s : St W) (granter grantee : Addr) (k : Kind) : Option (St W) :=
  match KV.get s.grants (granter, grantee, k) with
  | none => none
  | some _ => some { s with grants := KV.del s.grants (granter, grantee, k) }

/-- createStakingAuthz (staking/approve.go 236-278): the grant covers the validators that are not jailed now, and there must be one
(`StakeAuthorization.ValidateBasic`). -/
def createGrant (c : Chain W) (s : St W) (granter grantee : Addr) (n : Option Nat) (k : Kind) : Option (St W) :=
  if c.active s.world = [] then none
  else saveGrant s granter grantee k ⟨.stake (n.map (Coin.mk c.bond)) (c.active s.world) [], some (s.now + c.lasts)⟩

/-- grantOrDeleteStakingAuthz (staking/approve.go 203-234). No amount stands for `MaxUint256`. -/
def grantOrDelete (c : Chain W) (s : St W) (granter grantee : Addr) (n : Option Nat) (k : Kind) : Option (St W) :=
  match n with
  | none => createGrant c s granter grantee none k
  | some 0 => deleteGrant s granter grantee k
  | some (m + 1) => createGrant c s granter grantee (some (m + 1)) k

/-- decreaseAllowance (staking/approve.go 137-165, 280-305). Without amount and with a limit the Go code follows a nil pointer; the
panic fails the transaction. -/
def decrease (s : St W) (granter grantee : Addr) (n : Option Nat) (k : Kind) : Option (St W) :=
  match live s granter grantee k with
  | none => none
  | some g => match g.auth with
    | .generic => none
    | .stake none _ _ => some s
    | .stake (some l) allow deny => match n with
      | none => none
      | some m => if l.amount < m then none
        else saveGrant s granter grantee k ⟨.stake (some ⟨l.denom, l.amount - m⟩) allow deny, g.expiry⟩

/-- increaseAllowance (staking/approve.go 184-195, 307-336): not for `cancel`. -/
def increase (s : St W) (granter grantee : Addr) (n : Option Nat) (k : Kind) : Option (St W) :=
  if k = .cancel then none
  else match live s granter grantee k with
  | none => none
  | some g => match g.auth with
    | .generic => none
    | .stake none _ _ => some s
    | .stake (some l) allow deny => match n with
      | none => none
      | some m => saveGrant s granter grantee k ⟨.stake (some ⟨l.denom, l.amount + m⟩) allow deny, g.expiry⟩

/-- The loops over the message types (staking/approve.go 49-64, 89-100, 137-158, 184-195): the first error ends the call. -/
def forKinds (f : St W → Kind → Option (St W)) : List Kind → St W → Option (St W)
  | [], s => some s
  | k :: ks, s => match f s k with
    | none => none
    | some s' => forKinds f ks s'

/-- What is left of a limit (`Coin.SafeSub`): absent when the coin is another or the limit too small. -/
def coinSub (l c : Coin) : Option Nat := if l.denom ≠ c.denom then none else if l.amount < c.amount then none else some (l.amount - c.amount)

/-- Whether a validator is covered by the two lists of a `StakeAuthorization`. -/
def covers (allow deny : List Addr) (v : Addr) : Bool := decide (v ∉ deny ∧ (allow = [] ∨ v ∈ allow))

/-- UpdateStakingAuthorization (staking/approve.go 338-363) with `StakeAuthorization.Accept` of the SDK: the validator must be covered;
without limit the grant is stored again; a limit is lowered, and a grant with nothing left is deleted. -/
def accept (s : St W) (granter grantee : Addr) (k : Kind) (limit : Option Coin) (allow deny : List Addr) (expiry : Option Nat) (v : Addr)
    (coin : Coin) : Option (St W) :=
  if covers allow deny v = false then none
  else match limit with
  | none => saveGrant s granter grantee k ⟨.stake none allow deny, expiry⟩
  | some l => match coinSub l coin with
    | none => none
    | some 0 => deleteGrant s granter grantee k
    | some (n + 1) => saveGrant s granter grantee k ⟨.stake (some ⟨l.denom, n + 1⟩) allow deny, expiry⟩

/-- Run a message. -/
def runMsg (c : Chain W) (s : St W) (m : Msg) : Option (St W) := (c.exec s.world m).map (fun w => { s with world := w })

/-- The middle of Delegate, Undelegate and CancelUnbondingDelegation when the caller is not the origin (staking/tx.go 215-234, 312-332,
398-416): grant and limit are looked up, the message runs, the grant is charged. -/
def stakeWithGrant (c : Chain W) (s : St W) (granter caller : Addr) (k : Kind) (v : Addr) (coin : Coin) (m : Msg) : Option (St W) :=
  match live s granter caller k with
  | none => none
  | some g => match g.auth with
    | .generic => none
    | .stake limit allow deny =>
      if limit.any (fun l => decide (l.amount < coin.amount)) then none
      else match runMsg c s m with
        | none => none
        | some s' => accept s' granter caller k limit allow deny g.expiry v coin

/-- Delegate, Undelegate, CancelUnbondingDelegation (staking/tx.go 191-234, 288-332, 374-416): the delegator must be the caller or the
origin; in both cases the grant of the *origin* is looked up when the caller is another. -/
def stakeCall (c : Chain W) (s : St W) (origin caller : Addr) (k : Kind) (d v : Addr) (coin : Coin) (m : Msg) : Option (St W) :=
  let granter := if caller = d then origin else d
  if caller ≠ d ∧ origin ≠ d then none
  else if caller = origin then runMsg c s m
  else stakeWithGrant c s granter caller k v coin m

/-- The check of the distribution contract and of the votes (distribution/tx.go 55-60, 121-126, 154-159, 204-209, 254-259,
gov/tx.go 61-66, 95-100): the party is the calling contract, or it is the origin. -/
def partyCall (c : Chain W) (s : St W) (origin caller party : Addr) (m : Msg) : Option (St W) :=
  if ¬ (caller = party ∧ origin ≠ party) ∧ origin ≠ party then none else runMsg c s m

/-- CreateValidator and EditValidator (staking/tx.go 60-75, 118-137): no contracts, and the validator is the origin. -/
def validatorCall (c : Chain W) (s : St W) (origin caller v : Addr) (m : Msg) : Option (St W) :=
  if caller ≠ origin then none else if origin ≠ v then none else runMsg c s m

/-- The methods that change the state, with their arguments. Proposals, bridge, scheduled calls, logos and new tokens name no
account: they act for the origin. -/
inductive Method where
  | approve (grantee : Addr) (n : Option Nat) (kinds : List Kind)
  | revoke (grantee : Addr) (kinds : List Kind)
  | increaseAllowance (grantee : Addr) (n : Option Nat) (kinds : List Kind)
  | decreaseAllowance (grantee : Addr) (n : Option Nat) (kinds : List Kind)
  | createValidator (v : Addr) (self : Coin) (body : Nat)
  | editValidator (v : Addr) (body : Nat)
  | delegate (d v : Addr) (coin : Coin)
  | undelegate (d v : Addr) (coin : Coin)
  | cancelUnbonding (d v : Addr) (n height : Nat)
  | unjail (v : Addr)
  | claimRewards (d : Addr) (max : Nat)
  | setWithdrawAddress (d to : Addr)
  | withdrawReward (d v : Addr)
  | withdrawCommission (v : Addr)
  | fundCommunityPool (d : Addr) (coin : Coin)
  | vote (a : Addr) (proposal body : Nat)
  | submitProposal (deposit body : Nat)
  | sendToChain (chain : Nat) (dest : Addr) (coin : Coin) (fee : Nat)
  | cancelSendToChain (chain id : Nat)
  | requestData (body fee : Nat)
  | setOrchestrator (orch : Addr) (id : Nat)
  | manageBridge (body : Nat)
  | cron (body deposit : Nat)
  | storeLogo (body : Nat)
  | createToken (d : Denom) (supply : Nat)
deriving DecidableEq, Repr

/-- The bodies of the `Run` functions (staking/staking.go 137-172, distribution/distribution.go, gov/gov.go, hyperion/hyperion.go,
chronos/chronos.go, logos/logos.go). Note `evm.Origin` for the first four. -/
def call (c : Chain W) (s : St W) (origin caller : Addr) : Method → Option (St W)
  | .approve g n ks => if ks = [] then none else forKinds (fun s k => grantOrDelete c s origin g n k) ks s
  | .revoke g ks => if ks = [] then none else forKinds (fun s k => deleteGrant s origin g k) ks s
  | .increaseAllowance g n ks => if ks = [] then none else forKinds (fun s k => increase s origin g n k) ks s
  | .decreaseAllowance g n ks => if ks = [] then none else forKinds (fun s k => decrease s origin g n k) ks s
  | .createValidator v self b => validatorCall c s origin caller v (.createValidator v self b)
  | .editValidator v b => validatorCall c s origin caller v (.editValidator v b)
  | .delegate d v coin =>
    if c.listed s.world coin.denom = false then none else stakeCall c s origin caller .delegate d v coin (.delegate d v coin)
  | .undelegate d v coin =>
    if c.listed s.world coin.denom = false then none else stakeCall c s origin caller .undelegate d v coin (.undelegate d v coin)
  | .cancelUnbonding d v n h =>
    stakeCall c s origin caller .cancel d v ⟨c.bond, n⟩ (.cancelUnbonding d v ⟨c.bond, n⟩ h)
  | .unjail v => runMsg c s (.unjail v)
  | .claimRewards d n => partyCall c s origin caller d (.claimRewards d n)
  | .setWithdrawAddress d t => partyCall c s origin caller d (.setWithdrawAddress d t)
  | .withdrawReward d v => partyCall c s origin caller d (.withdrawReward d v)
  | .withdrawCommission v => partyCall c s origin caller v (.withdrawCommission v)
  | .fundCommunityPool d coin => partyCall c s origin caller d (.fundCommunityPool d coin)
  | .vote a p b => partyCall c s origin caller a (.vote a p b)
  | .submitProposal dep b => runMsg c s (.submitProposal origin dep b)
  | .sendToChain ch dest coin fee => runMsg c s (.sendToChain origin ch dest coin fee)
  | .cancelSendToChain ch id => runMsg c s (.cancelSendToChain origin ch id)
  | .requestData b fee => runMsg c s (.requestData origin caller b fee)
  | .setOrchestrator o id => runMsg c s (.setOrchestrator origin o id)
  | .manageBridge b => runMsg c s (.manageBridge origin b)
  | .cron b dep => runMsg c s (.cron origin b dep)
  | .storeLogo b => runMsg c s (.storeLogo origin b)
  | .createToken d n => if origin = 0 then none else runMsg c s (.createToken origin d n)

/-- What may happen: a call of one of the contracts, a signed Cosmos message that grants or revokes, anything else that changes the rest of the
chain, and the passing of time. (`MsgExec` of a grantee without the EVM is left out.) -/
inductive Op (W : Type) where
  | call (origin caller : Addr) (m : Method)
  | grant (granter grantee : Addr) (k : Kind) (g : Grant)
  | revoke (granter grantee : Addr) (k : Kind)
  | other (w : W)
  | tick (dt : Nat)

/-- One step; absent when it is refused. -/
def step (c : Chain W) (s : St W) : Op W → Option (St W)
  | .call o k m => call c s o k m
  | .grant a b k g => saveGrant s a b k g
  | .revoke a b k => deleteGrant s a b k
  | .other w => some { s with world := w }
  | .tick dt => some { s with now := s.now + dt }

/-- A refused step leaves everything as it is. -/
def next (c : Chain W) (s : St W) (op : Op W) : St W := (step c s op).getD s

/-- A history. -/
def run (c : Chain W) (s : St W) : List (Op W) → St W
  | [] => s
  | op :: ops => run c (next c s op) ops

end Authority
