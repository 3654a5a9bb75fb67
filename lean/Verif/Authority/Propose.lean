/-!
# Governance proposals made from the EVM, and their execution

Model of /repo/helios-chain/precompiles/gov/tx.go 116-475 and types.go 374-715, 795-839 (the six methods that submit a proposal), of
/repo/helios-chain/app/generic_proposal_handler.go, the table of routes in /repo/helios-chain/app/app.go 1190-1212, and of the dispatch in
/repo/helios-chain/x/hyperion/proposal_handler.go.

Simplifications. Addresses are numbers. A message is reduced to its type URL, the field in which it names the account it acts for, that account and what it does: pay
from that account, change a setting only governance may change, or nothing because no module handles it. The proposals about assets are reduced to whether their
handler succeeds and to the number of the list it leaves (C95 models the weights). The source of the gov module (a fork of the SDK's) is not in the repository: the
submission follows the SDK's 0.50 `SubmitProposal` (least initial deposit, a trial run of legacy contents whose changes are dropped, payment of the deposit to the
module's account), and the end of a proposal its `EndBlocker` (deposits returned or burned first, then the messages, all or none; a deposit that cannot be paid out
ends the block with an error). Voting itself is not modelled: a proposal ends as the operation says. Recipients blocked by the bank are left out.
-/
namespace Propose

abbrev Addr := Nat
abbrev Str := List Char

/-- The name of the Go field that holds the account a message acts for: `Authority`, `Signer`, or another one (`FromAddress`, `DelegatorAddress`, `Sender`, …). -/
inductive Field
  | authority
  | signer
  | other
deriving DecidableEq

/-- The types of messages the code distinguishes: those of tx.go 465-470, those listed in x/hyperion/proposal_handler.go 37-, and all others. -/
inductive Kind
  | assetList
  | inflation
  | hyperion
  | plain
deriving DecidableEq

/-- What a message does. -/
inductive Act
  | pay (dst : Addr) (amount : Nat)
  | set (value : Nat)
  | unrouted
deriving DecidableEq

/-- A message inside a proposal: its type URL, the field its signer is named in, the name there, and what it does. -/
structure Msg where
  url : Str
  kind : Kind := .plain
  field : Field
  name : Addr
  act : Act
deriving DecidableEq

/-- The content of a stored proposal. -/
inductive Content
  | assets (list : Nat) (works : Bool)
  | block (maxGas maxBytes : Int) (works : Bool)
  | hyperion (msg : Msg)
  | modules (route : Str) (msgs : List Msg)
deriving DecidableEq

/-- A proposal under way (the SDK's x/gov, `Proposal`), with its whole deposit from the proposer. -/
structure Proposal where
  id : Nat
  proposer : Addr
  deposit : Nat
  content : Content
deriving DecidableEq

/-- Balances, one setting that stands for what modules let only governance change, the list of assets, the limits of blocks, the next number and the proposals under way. -/
structure State where
  bal : Addr → Nat
  setting : Nat := 0
  assets : Nat := 0
  maxGas : Int := 0
  maxBytes : Int := 0
  next : Nat := 1
  pending : List Proposal := []

/-- `gov`: the address of the governance account, which holds the deposits and is the authority of the modules (app.go 946-956). `least`: the least initial deposit.
`space`: Go's `unicode.IsSpace`. `mintModular`: the modular route of the mint module, defined in the fork of the SDK. -/
structure Env where
  gov : Addr
  least : Nat
  space : Char → Bool
  mintModular : Str

/-- Which method is called, with its arguments other than title, description and deposit. -/
inductive Ask
  | addAssets (list : Nat) (works : Bool)
  | updateAssets (list : Nat) (works : Bool)
  | removeAssets (list : Nat) (works : Bool)
  | blockParams (maxGas maxBytes : Int) (works : Bool)
  | hyperion (msg : Msg)
  | modular (msg : Msg) (route : Str)
deriving DecidableEq

/-- A call. `parses`: the arguments about assets, or the JSON text of the message, can be read. -/
structure Req where
  origin : Addr
  caller : Addr
  title : Str
  description : Str
  deposit : Nat
  ask : Ask
  parses : Bool := true

/-- The outcome of turning the deposit of a call into coins: the call is refused, the call panics (in `sdk.NewCoin`), or there are that many coins. -/
inductive Coins
  | refused
  | panics
  | amount (n : Nat)
deriving DecidableEq

/-- `int64(x)` of a `uint64` and `big.Int.Int64` of a non-negative number: the low 64 bits, read as a signed number. -/
def toInt64 (x : Nat) : Int :=
  if x % 18446744073709551616 < 9223372036854775808 then ((x % 18446744073709551616 : Nat) : Int)
  else ((x % 18446744073709551616 : Nat) : Int) - 18446744073709551616

/-- `sdk.NewCoin("ahelios", …)`: panics for negative amounts. -/
def newCoin (v : Int) : Coins := if v < 0 then .panics else .amount v.toNat

/-- The check `BitLen() > 64` of five of the methods (types.go 475, 552, 607, 653, 698). -/
def fits64 (x : Nat) : Bool := decide (x < 18446744073709551616)

/-- The deposit of a call: tx.go 157, 216, 276 (assets, through `int64`), 337 (block parameters, `Int64()` without a check of the range, types.go 827-830), 384 and
452 (hyperion and modular, exact). -/
def coins (a : Ask) (x : Nat) : Coins :=
  match a with
  | .addAssets .. => if fits64 x then newCoin (toInt64 x) else .refused
  | .updateAssets .. => if fits64 x then newCoin (toInt64 x) else .refused
  | .removeAssets .. => if fits64 x then newCoin (toInt64 x) else .refused
  | .blockParams .. => newCoin (toInt64 x)
  | .hyperion _ => if fits64 x then newCoin (x : Int) else .refused
  | .modular .. => if fits64 x then newCoin (x : Int) else .refused

/-- The text up to the first dot, and the rest after it if there is a dot. -/
def cut : Str → Str × Option Str
  | [] => ([], none)
  | c :: t => if c = '.' then ([], some t) else (c :: (cut t).1, (cut t).2)

/-- `InferRouteFromMsg` (tx.go 401-409): the second part of the type URL split at dots. -/
def inferRoute (url : Str) : Str :=
  match (cut url).2 with
  | none => []
  | some t => (cut t).1

/-- `strings.TrimSpace`. -/
def trim (space : Char → Bool) (t : Str) : Str := ((t.dropWhile space).reverse.dropWhile space).reverse

/-- The modular route of the module for tokens (x/erc20/types). -/
def erc20Modular : Str := ['e', 'r', 'c', '2', '0', 'm', 'o', 'd', 'u', 'l', 'a', 'r']

/-- `computeModuleRoute` (tx.go 459-474). -/
def moduleRoute (e : Env) (explicit : Str) (m : Msg) : Str :=
  match m.kind with
  | .assetList => erc20Modular
  | .inflation => e.mintModular
  | _ => if trim e.space explicit = [] then inferRoute m.url else trim e.space explicit

/-- The routes with the generic handler (app.go 1197-1212). -/
def genericRoutes (e : Env) : List Str :=
  [['s', 'l', 'a', 's', 'h', 'i', 'n', 'g'], erc20Modular, e.mintModular, ['u', 'p', 'g', 'r', 'a', 'd', 'e'], ['b', 'a', 'n', 'k'],
   ['d', 'i', 's', 't', 'r', 'i', 'b', 'u', 't', 'i', 'o', 'n'], ['s', 't', 'a', 'k', 'i', 'n', 'g'], ['a', 'u', 't', 'h'], ['c', 'r', 'i', 's', 'i', 's'],
   ['e', 'v', 'm'], ['f', 'e', 'e', 'm', 'a', 'r', 'k', 'e', 't'], ['r', 'e', 'v', 'e', 'n', 'u', 'e'],
   ['t', 'o', 'k', 'e', 'n', 'f', 'a', 'c', 't', 'o', 'r', 'y'], ['l', 'o', 'g', 'o', 's'], ['i', 'n', 'f', 'l', 'a', 't', 'i', 'o', 'n']]

/-- The content of the proposal that a call makes (precompiles/gov/tx.go: the content built in each of the six methods). -/
def contentOf (e : Env) : Ask → Content
  | .addAssets l w => .assets l w
  | .updateAssets l w => .assets l w
  | .removeAssets l w => .assets l w
  | .blockParams g b w => .block g b w
  | .hyperion m => .hyperion m
  | .modular m r => .modules (moduleRoute e r m) [m]

/-- A payment of the bank module. -/
def move (b : Addr → Nat) (src dst : Addr) (n : Nat) : Addr → Nat := fun a =>
  if a = dst then (if a = src then b a - n else b a) + n else if a = src then b a - n else b a

/-- A message is handled by its module: nothing checks who signed (generic_proposal_handler.go 37-44). -/
def handle (e : Env) (s : State) (m : Msg) : Option State :=
  match m.act with
  | .pay dst n => if s.bal m.name < n then none else some { s with bal := move s.bal m.name dst n }
  | .set v => if m.name = e.gov then some { s with setting := v } else none
  | .unrouted => none

/-- `overrideAuthority` (generic_proposal_handler.go 51-77): the fields `Authority` and `Signer` are replaced, no others. -/
def override (e : Env) (m : Msg) : Msg :=
  match m.field with
  | .authority => { m with name := e.gov }
  | .signer => { m with name := e.gov }
  | .other => m

/-- The loop of the generic handler (generic_proposal_handler.go 29-46). -/
def handleAll (e : Env) (s : State) : List Msg → Option State
  | [] => some s
  | m :: rest =>
    match handle e s (override e m) with
    | none => none
    | some s' => handleAll e s' rest

/-- The execution of a content. Proposals for modules under a route that is not in the list either have no handler or reach one that does not know their type
(x/erc20/proposal_handler.go 18-32, x/hyperion/proposal_handler.go 15-24). A Hyperion proposal is executed as the authority if the type of its message is listed. -/
def execute (e : Env) (s : State) : Content → Option State
  | .assets l w => if w then some { s with assets := l } else none
  | .block g b w => if w then some { s with maxGas := g, maxBytes := b } else none
  | .hyperion m => if m.kind = .hyperion then handle e s { m with name := e.gov } else none
  | .modules r ms => if r ∈ genericRoutes e then handleAll e s ms else none

/-- The trial run of the submission; the block parameters are changed by a message of their own, for which there is none. -/
def tried (e : Env) (s : State) : Content → Bool
  | .block .. => true
  | c => (execute e s c).isSome

/-- The checks of the arguments before the deposit is looked at. -/
def argsOk (r : Req) : Bool :=
  if r.title = [] then false
  else if r.description = [] then false
  else match r.ask with
    | .blockParams g b _ => if g < 0 then false else if b < 0 then false else true
    | _ => r.parses

/-- The outcomes of a call. -/
inductive Res
  | ok (s : State) (id : Nat)
  | refused
  | panics

/-- A call of one of the six methods. -/
def propose (e : Env) (s : State) (r : Req) : Res :=
  if argsOk r = false then .refused
  else match coins r.ask r.deposit with
    | .refused => .refused
    | .panics => .panics
    | .amount n =>
      if n < e.least then .refused
      else if tried e s (contentOf e r.ask) = false then .refused
      else if s.bal r.origin < n then .refused
      else .ok { s with
        bal := move s.bal r.origin e.gov n
        next := s.next + 1
        pending := s.pending ++ [{ id := s.next, proposer := r.origin, deposit := n, content := contentOf e r.ask }] } s.next

/-- How a vote ends (the SDK's `Tally`): accepted, rejected, or rejected with the deposit burned. -/
inductive Outcome
  | passed
  | rejected
  | vetoed
deriving DecidableEq

/-- The proposal with a number, if it is under way. -/
def lookup (s : State) (id : Nat) : Option Proposal := s.pending.find? (fun p => p.id = id)

/-- The payment of a deposit at the end: back to the proposer, or burned. `none`: the governance account does not hold it. -/
def payOut (e : Env) (s : State) (p : Proposal) (o : Outcome) : Option State :=
  if s.bal e.gov < p.deposit then none
  else
    let rest := s.pending.filter (fun q => q.id ≠ p.id)
    match o with
    | .vetoed => some { s with bal := fun a => if a = e.gov then s.bal a - p.deposit else s.bal a, pending := rest }
    | _ => some { s with bal := move s.bal e.gov p.proposer p.deposit, pending := rest }

/-- The end of a proposal. `none`: the block ends with an error. -/
def finish (e : Env) (s : State) (id : Nat) (o : Outcome) : Option State :=
  match lookup s id with
  | none => some s
  | some p =>
    match payOut e s p o with
    | none => none
    | some s' =>
      match o with
      | .passed => some ((execute e s' p.content).getD s')
      | _ => some s'

/-- What happens to a chain: calls and ends of votes. -/
inductive Op
  | propose (r : Req)
  | finish (id : Nat) (o : Outcome)

/-- One step of the chain; a refused or panicking call changes nothing. -/
def step (e : Env) (s : State) : Op → Option State
  | .propose r =>
    match propose e s r with
    | .ok s' _ => some s'
    | _ => some s
  | .finish id o => finish e s id o

/-- A history; `none` when a block ends with an error. -/
def run (e : Env) (s : State) : List Op → Option State
  | [] => some s
  | o :: os =>
    match step e s o with
    | none => none
    | some s' => run e s' os

end Propose
