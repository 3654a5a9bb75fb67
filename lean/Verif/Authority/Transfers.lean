import Verif.Lib.KV
/-!
# Allowances for IBC transfers

The ICS-20 contract (helios-chain/precompiles/ics20, at 0x…0802) sends coins to other chains. A contract that sends coins of the account which
signed the transaction needs a grant of that account, kept by the authz module: for each channel a limit per coin, the receivers and the memos
allowed.

Modelled: `approve`, `revoke`, `increaseAllowance`, `decreaseAllowance`, `transfer` and `allowance`; `TransferAuthorization` of ibc-go v8 with its
checks and its `Accept`, and `SaveGrant`, `DeleteGrant`, `GetAuthorization`, `MsgGrant`, `MsgRevoke` and `MsgExec` of the SDK, whose sources
are not in the repository and were modelled from knowledge of them. `transfer` is cut into two steps, `enter` and `leave`: between them, if ERC-20
tokens have to be converted first (x/ibc/transfer/keeper/msg_server.go 69-101), the code of the token runs, in an EVM whose origin is
the sender (x/erc20/keeper/msg_server.go 92, x/evm/keeper/call_evm.go 43-100), and may call the contract again.

Left out: decoding of arguments, events, gas, the journal (see `Verif/EVM/Precompile.lean`), timeouts of packets, the queue of
expiring grants. A call that fails leaves no trace, so histories consist of the calls that succeeded. What a transfer does to balances and
channels is a parameter.
-/
namespace Ics

abbrev Addr := Nat

/-- One `Allocation` of a `TransferAuthorization` (ics20/types.go 294-331, common/types.go 24-32). `limit` has the amounts by the name of the coin.
Names and texts are numbers, ordered as the texts are. Memos are those without blanks around them: 0 is the empty one and 1 is `*`. -/
structure Alloc where
  port : Nat
  chan : Nat
  limit : List (Nat × Nat)
  receivers : List Nat
  memos : List Nat
deriving DecidableEq, Repr

/-- What is granted for `MsgTransfer`: a `TransferAuthorization`, or a `GenericAuthorization`, which only a Cosmos message can grant. -/
inductive Auth where
  | transfer (as : List Alloc)
  | generic
deriving DecidableEq, Repr

/-- A stored grant. -/
structure Grant where
  auth : Auth
  expiry : Option Nat
deriving DecidableEq, Repr

/-- `MsgTransfer` (ics20/types.go 100-191). -/
structure Msg where
  port : Nat
  chan : Nat
  name : Nat
  amount : Nat
  sender : Addr
  receiver : Nat
  memo : Nat
deriving DecidableEq, Repr

/-- The two useful fields of `authz.AcceptResponse`, `Delete` and `Updated`. -/
inductive After where
  | keep
  | delete
  | update (as : List Alloc)
deriving DecidableEq, Repr

/-- A transfer that has begun: who signed, who called, the message, what will be done to the grant, the time of expiry read with it, whether the
grant was charged already, and whether the code of a token runs. For `MsgExec`, signer and caller are granter and grantee. -/
structure Frame where
  signer : Addr
  caller : Addr
  msg : Msg
  after : After
  expiry : Option Nat
  paid : Bool
  runs : Bool
deriving DecidableEq, Repr

/-- A packet sent. `coin` is what really left, `name` what the message called it. -/
structure Sent where
  signer : Addr
  caller : Addr
  sender : Addr
  port : Nat
  chan : Nat
  name : Nat
  coin : Nat
  amount : Nat
  receiver : Nat
  memo : Nat
deriving DecidableEq, Repr

/-- The rest of the chain, with state `W`: the channels there are, which coin a name stands for (x/ibc/transfer/keeper/msg_server.go 45-67), whether
a transfer first converts tokens of a contract (69-101), what a transfer does (absent when it fails), and how long approvals last (one year,
common/types.go 18). -/
structure Chain (W : Type) where
  hasChannel : W → Nat → Nat → Bool
  coinOf : W → Nat → Nat
  converts : W → Msg → Bool
  exec : W → Msg → Option W
  lasts : Nat

/-- The time of the block, grants by (granter, grantee), the transfers under way (innermost first), the packets sent so far, and the rest. -/
structure St (W : Type) where
  now : Nat
  grants : List ((Addr × Addr) × Grant)
  frames : List Frame
  log : List Sent
  world : W
deriving DecidableEq

variable {W : Type}

/-- `UnboundedSpendLimit()` of ibc-go: `MaxUint256` means no limit. -/
def top : Nat := 2 ^ 256 - 1

/-- `GetAuthorization` of the SDK, behind `CheckAuthzExists` (authorization/types.go 137-153). -/
def live (s : St W) (a b : Addr) : Option Grant :=
  match KV.get s.grants (a, b) with
  | none => none
  | some g => match g.expiry with
    | none => some g
    | some e => if e < s.now then none else some g

/-- `SaveGrant` of the SDK: a time of expiry must lie after the time of the block. -/
def saveGrant (s : St W) (a b : Addr) (g : Grant) : Option (St W) :=
  match g.expiry with
  | none => some { s with grants := KV.set s.grants (a, b) g }
  | some e => if e ≤ s.now then none else some { s with grants := KV.set s.grants (a, b) g }

/-- `DeleteGrant` of the SDK: an error when there is none. -/
def deleteGrant (s : St W) (a b : Addr) : Option (St W) :=
  match KV.get s.grants (a, b) with
  | none => none
  | some _ => some { s with grants := KV.del s.grants (a, b) }

/-- `Coins.AmountOf`. -/
def amountOf (l : List (Nat × Nat)) (d : Nat) : Nat := (KV.get l d).getD 0

/-- Put another amount for a coin that is there; an amount of zero leaves the list (`Coins.Add`, `Coins.SafeSub` of the SDK, and the loop in
ics20/approve_common.go 190-203). -/
def putCoin : List (Nat × Nat) → Nat → Nat → List (Nat × Nat)
  | [], _, _ => []
  | e :: l, d, n => if e.1 = d then (if n = 0 then l else (d, n) :: l) else e :: putCoin l d n

/-- The first allocation for a port and channel (checkAllocationExists, ics20/types.go 333-352; `getAllocationIndex` of ibc-go). -/
def lookup (as : List Alloc) (p c : Nat) : Option Alloc := as.find? (fun a => decide (a.port = p ∧ a.chan = c))

/-- Put another allocation in the place of the first one for a port and channel, or take that one out. -/
def replace : List Alloc → Nat → Nat → Option Alloc → List Alloc
  | [], _, _, _ => []
  | a :: as, p, c, x =>
    if a.port = p ∧ a.chan = c then (match x with | none => as | some y => y :: as) else a :: replace as p c x

/-- `validateMemo` of ibc-go: without list only the empty memo; `*` alone allows all. -/
def memoOk (memos : List Nat) (memo : Nat) : Bool :=
  if memos = [] then decide (memo = 0) else if memos = [1] then true else decide (memo ∈ memos)

/-- `TransferAuthorization.Accept` of ibc-go. -/
def accept (as : List Alloc) (m : Msg) : Option After :=
  match lookup as m.port m.chan with
  | none => none
  | some a =>
    if a.receivers ≠ [] ∧ m.receiver ∉ a.receivers then none
    else if memoOk a.memos m.memo = false then none
    else if amountOf a.limit m.name = top then some .keep
    else match KV.get a.limit m.name with
      | none => none
      | some n =>
        if n < m.amount then none
        else
          let l := putCoin a.limit m.name (n - m.amount)
          if l = [] then
            let r := replace as m.port m.chan none
            if r = [] then some .delete else some (.update r)
          else some (.update (replace as m.port m.chan (some { a with limit := l })))

/-- `Coins.Validate` of the SDK: sorted by name, no name twice, no zero. Amounts come as `uint256`. -/
def validCoins (l : List (Nat × Nat)) : Bool :=
  decide ((l.map (·.1)).Pairwise (· < ·) ∧ ∀ e ∈ l, 0 < e.2 ∧ e.2 ≤ top)

/-- `TransferAuthorization.ValidateBasic` of ibc-go, called in ics20/types.go 93: at least one allocation, no channel twice, valid limits, no receiver
twice. The form of identifiers is left out. -/
def validAllocs (as : List Alloc) : Bool :=
  decide (as ≠ [] ∧ (as.map (·.chan)).Nodup ∧ ∀ a ∈ as, validCoins a.limit = true ∧ a.receivers.Nodup)

/-- `MsgTransfer.ValidateBasic` of ibc-go, called in ics20/types.go 185, as far as it looks at the amount, which comes as `uint256`. -/
def validMsg (m : Msg) : Bool := decide (0 < m.amount ∧ m.amount ≤ top)

/-- The methods that change grants, with their arguments. -/
inductive Method where
  | approve (grantee : Addr) (as : List Alloc)
  | revoke (grantee : Addr)
  | increase (grantee : Addr) (port chan name n : Nat)
  | decrease (grantee : Addr) (port chan name n : Nat)
deriving DecidableEq, Repr

/-- ics20/approve_common.go 29-66, ics20/approve.go 12-41. -/
def approve (c : Chain W) (s : St W) (origin g : Addr) (as : List Alloc) : Option (St W) :=
  if validAllocs as = false then none
  else if as.all (fun a => c.hasChannel s.world a.port a.chan) = false then none
  else saveGrant s origin g ⟨.transfer as, some (s.now + c.lasts)⟩

/-- ics20/approve_common.go 67-99 with checkRevokeArgs (ics20/types.go 246-258). -/
def revoke (s : St W) (origin g : Addr) : Option (St W) :=
  if g = 0 then none
  else match live s origin g with
    | none => none
    | some x => match x.auth with
      | .generic => none
      | .transfer _ => deleteGrant s origin g

/-- ics20/approve_common.go 101-153 with checkAllowanceArgs (ics20/types.go 260-292). The sum must fit into 256 bits (common/types.go 141-146). -/
def increase (s : St W) (origin g : Addr) (p c d n : Nat) : Option (St W) :=
  if g = 0 then none
  else match live s origin g with
    | none => none
    | some x => match x.auth with
      | .generic => none
      | .transfer as => match lookup as p c with
        | none => none
        | some a => match KV.get a.limit d with
          | none => none
          | some m =>
            if top < m + n then none
            else saveGrant s origin g ⟨.transfer (replace as p c (some { a with limit := putCoin a.limit d (m + n) })), x.expiry⟩

/-- ics20/approve_common.go 155-220: an allocation whose limit has become empty stays. -/
def decrease (s : St W) (origin g : Addr) (p c d n : Nat) : Option (St W) :=
  if g = 0 then none
  else match live s origin g with
    | none => none
    | some x => match x.auth with
      | .generic => none
      | .transfer as => match lookup as p c with
        | none => none
        | some a => match KV.get a.limit d with
          | none => none
          | some m =>
            if m < n then none
            else saveGrant s origin g ⟨.transfer (replace as p c (some { a with limit := putCoin a.limit d (m - n) })), x.expiry⟩

/-- ics20/ics20.go 101-108: all four take `evm.Origin`, not the caller, for the granter. -/
def call (c : Chain W) (s : St W) (origin : Addr) : Method → Option (St W)
  | .approve g as => approve c s origin g as
  | .revoke g => revoke s origin g
  | .increase g p ch d n => increase s origin g p ch d n
  | .decrease g p ch d n => decrease s origin g p ch d n

/-- Begin a transfer. -/
def push (c : Chain W) (s : St W) (signer caller : Addr) (m : Msg) (after : After) (expiry : Option Nat) (paid : Bool) : St W :=
  { s with frames := ⟨signer, caller, m, after, expiry, paid, c.converts s.world m⟩ :: s.frames }

/-- ics20/tx.go 27-58 with CheckAndAcceptAuthorizationIfNeeded (ics20/types.go 389-413): the sender must be the caller or the origin; unless the
caller is the origin, the grant the *origin* gave to the caller is used, whoever of the two is the sender. -/
def enter (c : Chain W) (s : St W) (origin caller : Addr) (m : Msg) : Option (St W) :=
  if validMsg m = false then none
  else if c.hasChannel s.world m.port m.chan = false then none
  else if caller ≠ m.sender ∧ origin ≠ m.sender then none
  else if caller = origin then some (push c s origin caller m .keep none false)
  else match live s origin caller with
    | none => none
    | some g => match g.auth with
      | .generic => none
      | .transfer as => match accept as m with
        | none => none
        | some r => some (push c s origin caller m r g.expiry false)

/-- UpdateGrant (ics20/approve_common.go 246-266). -/
def settle (s : St W) (f : Frame) : Option (St W) :=
  match f.after with
  | .keep => some s
  | .delete => deleteGrant s f.signer f.caller
  | .update as => saveGrant s f.signer f.caller ⟨.transfer as, f.expiry⟩

/-- ics20/tx.go 60-67: the coins leave, then the grant is written. -/
def leave (c : Chain W) (s : St W) : Option (St W) :=
  match s.frames with
  | [] => none
  | f :: fs => match c.exec s.world f.msg with
    | none => none
    | some w => settle { s with
        frames := fs
        world := w
        log := s.log ++ [⟨f.signer, f.caller, f.msg.sender, f.msg.port, f.msg.chan, f.msg.name, c.coinOf s.world f.msg.name, f.msg.amount,
          f.msg.receiver, f.msg.memo⟩] } f

/-- `MsgExec` of the SDK with one `MsgTransfer` (`DispatchActions`): here the grant is written first. A message of one's own needs no grant, as
when it is sent without `MsgExec`. -/
def exec (c : Chain W) (s : St W) (grantee : Addr) (m : Msg) : Option (St W) :=
  if validMsg m = false then none
  else if m.sender = grantee then some (push c s grantee grantee m .keep none true)
  else match live s m.sender grantee with
    | none => none
    | some g => match g.auth with
      | .generic => some (push c s m.sender grantee m .keep none true)
      | .transfer as => match accept as m with
        | none => none
        | some .keep => some (push c s m.sender grantee m .keep none true)
        | some .delete => some (push c { s with grants := KV.del s.grants (m.sender, grantee) } m.sender grantee m .keep none true)
        | some (.update r) =>
          some (push c { s with grants := KV.set s.grants (m.sender, grantee) ⟨.transfer r, g.expiry⟩ } m.sender grantee m .keep none true)

/-- `MsgGrant` of the SDK. -/
def grant (s : St W) (a b : Addr) (x : Auth) (e : Option Nat) : Option (St W) :=
  if a = b then none
  else match x with
    | .generic => saveGrant s a b ⟨x, e⟩
    | .transfer as => if validAllocs as = false then none else saveGrant s a b ⟨x, e⟩

/-- What may happen: calls of the contract by `caller` in a transaction signed by `origin`, transfers in two steps, Cosmos messages that grant,
revoke and execute, anything else that changes the rest of the chain, and the passing of time. -/
inductive Op (W : Type) where
  | call (origin caller : Addr) (m : Method)
  | enter (origin caller : Addr) (m : Msg)
  | leave
  | grant (granter grantee : Addr) (x : Auth) (e : Option Nat)
  | drop (granter grantee : Addr)
  | exec (grantee : Addr) (m : Msg)
  | other (w : W)
  | tick (dt : Nat)

/-- While a transfer is under way, only the code of a token runs, and its origin is the sender of that transfer. -/
def mayCall (s : St W) (origin : Addr) : Bool :=
  match s.frames with
  | [] => true
  | f :: _ => f.runs && decide (origin = f.msg.sender)

/-- One step; absent when it is refused. -/
def step (c : Chain W) (s : St W) : Op W → Option (St W)
  | .call o _ m => if mayCall s o then call c s o m else none
  | .enter o b m => if mayCall s o then enter c s o b m else none
  | .leave => leave c s
  | .grant a b x e => if s.frames = [] then grant s a b x e else none
  | .drop a b => if s.frames = [] then deleteGrant s a b else none
  | .exec g m => if s.frames = [] then exec c s g m else none
  | .other w => if s.frames.head?.all (·.runs) then some { s with world := w } else none
  | .tick dt => if s.frames = [] then some { s with now := s.now + dt } else none

/-- A history of steps that all succeed. -/
def run (c : Chain W) (s : St W) : List (Op W) → Option (St W)
  | [] => some s
  | op :: ops => (step c s op).bind (fun s' => run c s' ops)

/-- `allowance` (ics20/query.go 95-145): absent when it fails. -/
def allowance (s : St W) (grantee granter : Addr) : Option (List Alloc) :=
  match live s granter grantee with
  | none => some []
  | some g => match g.auth with
    | .generic => none
    | .transfer as => some as

/-- Nothing granted, nothing sent. -/
def init (w : W) (now : Nat) : St W := ⟨now, [], [], [], w⟩

end Ics
