import Verif.Erc20.Convert
/-!
# Transfers of ERC-20 tokens over IBC

A registered ERC-20 token can be sent over IBC: the message server turns tokens into coins of the pair before the transfer
(helios-chain/x/ibc/transfer/keeper/msg_server.go 26-116), and a middleware turns coins into tokens when they come back, or when
a transfer fails (helios-chain/x/erc20/keeper/ibc_callbacks.go 33-240, helios-chain/x/erc20/ibc_middleware.go 41-113). One pair of
an external token is modelled, with all channels over which its coins go out. The conversions are those of `Verif.Erc20.Convert`,
here for a standard token that can be paused.

The transfer module of ibc-go, IBC core and the chains at the other ends are not in the repository. They are modelled as the
ICS-20 standard has them: coins that go out wait in an account of the channel, the other chain mints and burns vouchers, a packet
is received or timed out or refused, once, and failing callbacks change nothing. Packets carry coins of this pair only; fees,
rate limits and packet forwarding are left out.
-/
namespace Erc20.Ibc

open Erc20.Convert

/-- The state of a standard token: balances, and whether its owner stopped transfers. -/
structure Tok where
  bal : Nat → Nat
  paused : Bool

/-- `transfer` of a standard token: fails when the token is paused or the balance too small. (Balances do not reach `2^256`, as
the total is bounded by the contract.) -/
def move (t : Tok) (a b n : Nat) : Option Tok :=
  if t.paused ∨ t.bal a < n then none
  else
    let c := setCoins t.bal a (t.bal a - n)
    some { t with bal := setCoins c b (c b + n) }

/-- The hash of `Transfer(address,address,uint256)`, some number other than that of `Approval`. -/
def transferSig : Nat := 2

/-- The token as the conversions see it. -/
def std : Token Tok where
  balanceOf t a := some (t.bal a)
  transfer w a b n := match move w.tok a b n with
    | none => none
    | some t => some ({ w with tok := t }, true, [[transferSig, a, b]])

/-- The account in which channel `c` keeps coins that are out, `transfertypes.GetEscrowAddress`. Accounts are numbers: 0 is the
module's, odd ones are those of channels, the others belong to users. -/
def esc (c : Nat) : Nat := 2 * c + 1

def isUser (a : Nat) : Bool := decide (a ≠ 0) && decide (a % 2 = 0)

/-- Where a packet that went out is: on its way, received (with vouchers minted), refused by the other chain, known to be received,
or refunded. -/
inductive OutAt where
  | going | received | refused | done | refunded
deriving DecidableEq

structure Out where
  chan : Nat
  sender : Nat
  amount : Nat
  at_ : OutAt

/-- Where a packet that comes in is: on its way, delivered here, refused here, or refused and known to be at the other chain. -/
inductive InAt where
  | coming | delivered | refused | returned
deriving DecidableEq

/-- A packet that brings coins back. `self` says that sender and recipient are the same bytes, on a channel that is not listed in
`EVMChannels` (ibc_callbacks.go 66-76). -/
structure In where
  chan : Nat
  recipient : Nat
  amount : Nat
  self : Bool
  at_ : InAt

/-- The token, the coins of the pair and their supply; the switches of the module and of the pair; coins locked by vesting; packets
in both directions, by number; vouchers at the other end of each channel. -/
structure St where
  w : World Tok
  on : Bool
  pair : Bool
  locked : Nat → Nat
  out : Nat → Option Out
  nOut : Nat
  inn : Nat → Option In
  nIn : Nat
  there : Nat → Nat

/-- At the start there are no coins of the pair. -/
def init (bal : Nat → Nat) : St :=
  { w := { tok := { bal := bal, paused := false }, coins := fun _ => 0, supply := 0 }, on := true, pair := true,
    locked := fun _ => 0, out := fun _ => none, nOut := 0, inn := fun _ => none, nIn := 0, there := fun _ => 0 }

def setAt {α : Type} (f : Nat → α) (i : Nat) (x : α) : Nat → α := fun j => if j = i then x else f j

/-- Bank SendCoins: fails when what is not locked does not suffice. -/
def pay (s : St) (a b n : Nat) : Option St :=
  if s.w.coins a < s.locked a + n then none
  else
    let c := setCoins s.w.coins a (s.w.coins a - n)
    some { s with w := { s.w with coins := setCoins c b (c b + n) } }

/-- Transfer of ibc-go: the coins go to the channel's account and a packet is sent. -/
def ship (s : St) (c a n : Nat) : Option St :=
  match pay s a (esc c) n with
  | none => none
  | some s' => some { s' with out := setAt s'.out s'.nOut (some { chan := c, sender := a, amount := n, at_ := .going }), nOut := s'.nOut + 1 }

/-- ConvertERC20 of the difference (x/ibc/transfer/keeper/msg_server.go 89-103), to the sender. -/
def fill (s : St) (a n : Nat) : Option St :=
  match convertERC20 std s.w a a (n - s.w.coins a) with
  | none => none
  | some w => some { s with w := w }

/-- Transfer (x/ibc/transfer/keeper/msg_server.go 26-116). ValidateBasic of the message wants a positive amount. The balance is
compared including what is locked (lines 71-72). -/
def transfer (s : St) (c a n : Nat) : Option St :=
  if isUser a = false ∨ n = 0 then none
  else if s.pair = false ∨ s.on = false then ship s c a n
  else if s.w.coins a ≥ n then ship s c a n
  else match fill s a n with
    | none => none
    | some s' => ship s' c a n

/-- ConvertCoinNativeERC20 (x/erc20/keeper/msg_server.go 196-260) with the bank's check of locked coins. -/
def toTokens (s : St) (a n : Nat) : Option St :=
  if n ≠ 0 ∧ s.w.coins a < s.locked a + n then none
  else match convertBack std s.w a a n with
    | none => none
    | some w => some { s with w := w }

/-- The refund: the transfer module pays back from the channel's account (ibc_middleware.go 88, 110), then the whole amount is
converted to tokens (ibc_callbacks.go 186-240), unless the module is switched off; the switch of the pair is not looked at. -/
def refund (s : St) (p : Out) : Option St :=
  match pay s (esc p.chan) p.sender p.amount with
  | none => none
  | some s' => if s'.on then toTokens s' p.sender p.amount else some s'

/-- The callback after coins were received (ibc_callbacks.go 33-152) for a coin of the pair: the recipient's whole balance is
converted (line 136). `none` is an error acknowledgement. -/
def afterRecv (s : St) (p : In) : Option St :=
  if s.on = false then some s
  else if p.self then none
  else if s.pair = false then some s
  else toTokens s p.recipient (s.w.coins p.recipient)

/-- OnRecvPacket (ibc_middleware.go 41-54): the transfer module pays from the channel's account, unless the recipient is blocked (the
erc20 module's account is, app/app.go 674-682; accounts of channels are not), then the callback. -/
def receive (s : St) (p : In) : Option St :=
  if p.recipient = moduleAddr then none
  else match pay s (esc p.chan) p.recipient p.amount with
    | none => none
    | some s' => afterRecv s' p

/-- What can happen: a transfer; what the other chain does with a packet; an acknowledgement or a time-out comes back; the other chain
sends coins back; such a packet arrives; its refusal is known there; a payment in coins, or in tokens; ConvertERC20 by a user;
the token is paused; governance switches the module or the pair; a vesting account is created with locked coins, for an account that
has none yet; locked coins become free. -/
inductive Op where
  | transfer (c a n : Nat)
  | accept (i : Nat)
  | refuse (i : Nat)
  | ack (i : Nat)
  | timeout (i : Nat)
  | sendBack (c r n : Nat) (self : Bool)
  | recv (i : Nat)
  | ackBack (i : Nat)
  | pay (a b n : Nat)
  | payTokens (a b n : Nat)
  | convert (a b n : Nat)
  | pause (b : Bool)
  | setOn (b : Bool)
  | setPair (b : Bool)
  | vest (a b n : Nat)
  | unlock (a : Nat)

def setOut (s : St) (i : Nat) (p : Out) (x : OutAt) : St := { s with out := setAt s.out i (some { p with at_ := x }) }
def setIn (s : St) (i : Nat) (p : In) (x : InAt) : St := { s with inn := setAt s.inn i (some { p with at_ := x }) }

/-- The other chain received a packet and minted vouchers. A packet is received at most once. -/
def accept (s : St) (i : Nat) : St :=
  match s.out i with
  | none => s
  | some p =>
    if p.at_ = .going then { setOut s i p .received with there := setAt s.there p.chan (s.there p.chan + p.amount) } else s

def refuse (s : St) (i : Nat) : St :=
  match s.out i with
  | none => s
  | some p => if p.at_ = .going then setOut s i p .refused else s

/-- The refund of packet `i`, if the callbacks succeed; otherwise nothing changes and a relayer may try again. -/
def refundStep (s : St) (i : Nat) (p : Out) : St :=
  match refund s p with
  | none => s
  | some s' => setOut s' i p .refunded

/-- OnAcknowledgementPacket (ibc_middleware.go 70-93, ibc_callbacks.go 158-174). -/
def ack (s : St) (i : Nat) : St :=
  match s.out i with
  | none => s
  | some p =>
    if p.at_ = .received then setOut s i p .done
    else if p.at_ = .refused then refundStep s i p
    else s

/-- OnTimeoutPacket (ibc_middleware.go 98-113, ibc_callbacks.go 178-180), for a packet that was not received and will not be. -/
def timeout (s : St) (i : Nat) : St :=
  match s.out i with
  | none => s
  | some p => if p.at_ = .going then refundStep s i p else s

/-- The other chain burns vouchers and sends a packet; it needs to have them. -/
def sendBack (s : St) (c r n : Nat) (self : Bool) : St :=
  if n = 0 ∨ s.there c < n then s
  else { s with there := setAt s.there c (s.there c - n),
                inn := setAt s.inn s.nIn (some { chan := c, recipient := r, amount := n, self := self, at_ := .coming }),
                nIn := s.nIn + 1 }

/-- A packet arrives; with an error acknowledgement IBC core drops all changes. -/
def recv (s : St) (i : Nat) : St :=
  match s.inn i with
  | none => s
  | some p =>
    if p.at_ = .coming then
      match receive s p with
      | none => setIn s i p .refused
      | some s' => setIn s' i p .delivered
    else s

/-- The other chain learns of a refusal and gives the vouchers back to their sender. -/
def ackBack (s : St) (i : Nat) : St :=
  match s.inn i with
  | none => s
  | some p =>
    if p.at_ = .refused then { setIn s i p .returned with there := setAt s.there p.chan (s.there p.chan + p.amount) } else s

/-- Bank MsgSend of coins of the pair by a user; blocked recipients are refused. -/
def payStep (s : St) (a b n : Nat) : St :=
  if isUser a = false ∨ b = moduleAddr then s else (pay s a b n).getD s

/-- A user calls `transfer` of the token. -/
def payTokens (s : St) (a b n : Nat) : St :=
  if isUser a = false then s
  else match move s.w.tok a b n with
    | none => s
    | some t => { s with w := { s.w with tok := t } }

/-- ConvertERC20 sent by a user (x/erc20/keeper/msg_server.go 26-60, mint.go 19-66). -/
def convert (s : St) (a b n : Nat) : St :=
  if isUser a = false ∨ b = moduleAddr ∨ s.on = false ∨ s.pair = false then s
  else match convertERC20 std s.w a b n with
    | none => s
    | some w => { s with w := w }

/-- MsgCreateVestingAccount and MsgCreatePermanentLockedAccount of the SDK (registered in app/app.go 265, 1279): anyone can create a
vesting account at an address that has no account, paying the coins that are locked. The model takes an address without locked coins
instead of one without account. -/
def vest (s : St) (a b n : Nat) : St :=
  if isUser a = false ∨ b = moduleAddr ∨ s.locked b ≠ 0 then s
  else match pay s a b n with
    | none => s
    | some s' => { s' with locked := setAt s'.locked b n }

def step (s : St) : Op → St
  | .transfer c a n => (transfer s c a n).getD s
  | .accept i => accept s i
  | .refuse i => refuse s i
  | .ack i => ack s i
  | .timeout i => timeout s i
  | .sendBack c r n self => sendBack s c r n self
  | .recv i => recv s i
  | .ackBack i => ackBack s i
  | .pay a b n => payStep s a b n
  | .payTokens a b n => payTokens s a b n
  | .convert a b n => convert s a b n
  | .pause b => { s with w := { s.w with tok := { s.w.tok with paused := b } } }
  | .setOn b => { s with on := b }
  | .setPair b => { s with pair := b }
  | .vest a b n => vest s a b n
  | .unlock a => { s with locked := setAt s.locked a 0 }

def run (s : St) : List Op → St
  | [] => s
  | op :: ops => run (step s op) ops

end Erc20.Ibc
