import Verif.Hyperion.Claims
import Verif.Lib.KV
import Verif.Lib.Sort
/-!
# External data requests (`x/hyperion`)

Contracts pay for a call on another chain; validators report its result; the end of a block picks the answer, pays the
reporters and refunds what timed out.  One counterparty chain; addresses are numbers.
-/
namespace Hyperion.External
open StableSort

/-- `MsgExternalDataClaim` (types/msgs.go 306-329), the fields that matter here: who reports (the address that is written
into `Votes`, msg_server_hyperion.go 544, 569), the result and the error text.  The nonce is that of the request
(msg_server_hyperion.go 557). -/
structure Claim where
  orch : Nat
  result : Str
  error : Str
deriving DecidableEq, Repr

/-- `OutgoingExternalDataTx` (keeper/external_data.go 38-51) without the chain id, the call and the callback id; `Votes` are
the reporters of `Claims`, which are always appended together (msg_server_hyperion.go 569-570). -/
structure Req where
  nonce : Nat
  contract : Nat
  sender : Nat
  fee : Nat
  timeout : Nat
  claims : List Claim
deriving DecidableEq, Repr

/-- `tx.Votes`. -/
def Req.votes (r : Req) : List Nat := r.claims.map (·.orch)

/-- What happens, in the order of events.
* `asked n sender fee`: the request was accepted and paid for;
* `refunded n to amount`, `rewarded n to amount`: coins sent out of the module for request `n`;
* `cancelled n`: the request was deleted by `CancelOutgoingExternalDataTX`;
* `answered n claim voters`: the request was answered with the result of `claim`. -/
inductive Event where
  | asked (n sender fee : Nat)
  | refunded (n to amount : Nat)
  | rewarded (n to amount : Nat)
  | cancelled (n : Nat)
  | answered (n : Nat) (claim : Claim) (voters : List Nat)
deriving DecidableEq, Repr

/-- The pending requests, the last nonce given out, the height of the last block, the coins the module holds for this
purpose, and all events so far, the newest first. -/
structure State where
  reqs : List Req
  last : Nat
  height : Nat
  held : Nat
  log : List Event
deriving DecidableEq, Repr

/-- What the end of a block reads from elsewhere: the last power of the validator with an address (abci.go 673-674), the
total power of the validators of the bridge (646), whether the fee coin has a token pair (external_data.go 163-167), and
the order in which Go iterates over a map (which Go leaves open; abci.go 620). -/
structure Env where
  power : Nat → Nat
  total : Nat
  pair : Bool
  order : List Str → List Str

/-- `%d|%s|%s` (abci.go 607-611). -/
def claimKey (n : Nat) (c : Claim) : Str := dec n ++ 0x7c :: (c.result ++ 0x7c :: c.error)

/-- `frequencies` (abci.go 601-613). -/
def freqs (n : Nat) (cs : List Claim) : List (Str × Nat) :=
  cs.foldl (fun m c => KV.set m (claimKey n c) ((KV.get m (claimKey n c)).getD 0 + 1)) []

/-- `claimsByKey` (abci.go 602-614): the last claim with a key. -/
def byKey (n : Nat) (cs : List Claim) : List (Str × Claim) := cs.foldl (fun m c => KV.set m (claimKey n c) c) []

/-- abci.go 618-625: the loop over the map, with the best frequency and key so far. -/
def pick (m : List (Str × Nat)) : List Str → Nat × Str → Nat × Str
  | [], b => b
  | k :: ks, b => pick m ks (if b.1 < (KV.get m k).getD 0 then ((KV.get m k).getD 0, k) else b)

/-- `selectBestClaimFromListOfClaims` (abci.go 589-629). -/
def best (env : Env) (r : Req) : Option Claim :=
  match r.claims with
  | [] => none
  | [c] => some c
  | cs => KV.get (byKey r.nonce cs) (pick (freqs r.nonce cs) (env.order ((freqs r.nonce cs).map (·.1))) (0, [])).2

/-- `GetRequiredPower(total, 33)` (keeper/attestation.go 182-184). -/
def required (env : Env) : Nat := env.total * 33 / 100

/-- abci.go 672-700: add the power of each vote until the required power is reached. -/
def count (env : Env) : List Nat → Nat → Nat × Bool
  | [], acc => (acc, false)
  | v :: vs, acc => if required env ≤ acc + env.power v then (acc + env.power v, true) else count env vs (acc + env.power v)

/-- `SendCoinsFromModuleToAccount` with its error ignored; accounts that cannot receive coins are not modelled. -/
def send (s : State) (amount : Nat) (e : Event) : State :=
  if amount ≤ s.held then { s with held := s.held - amount, log := e :: s.log } else s

/-- `RefundExternalData` (external_data.go 203-213). -/
def refund (env : Env) (s : State) (r : Req) : State :=
  if env.pair then send s r.fee (.refunded r.nonce r.sender r.fee) else s

/-- `DeleteExternalData` (external_data.go 216-223).  The copy under the block key, which nothing reads, is not modelled. -/
def remove (s : State) (r : Req) : State :=
  { s with reqs := s.reqs.filter (fun q => !(q.nonce == r.nonce && q.contract == r.contract)) }

/-- external_data.go 84. -/
def older (r q : Req) : Bool := decide (q.nonce < r.nonce) && q.contract == r.contract

/-- external_data.go 81-92: cancel the earlier requests to the same contract. -/
def cancelOlder (s : State) (r : Req) : State :=
  { s with
    reqs := s.reqs.filter (fun q => !older r q)
    log := ((s.reqs.filter (older r)).map (fun q => Event.cancelled q.nonce)) ++ s.log }

/-- `rewardVotersOfExternalDataTx` (external_data.go 161-188); the statistics of the orchestrators are not modelled. -/
def reward (env : Env) (s : State) (r : Req) : State :=
  if env.pair then
    r.votes.foldl (fun s v => send s (r.fee / r.votes.length) (.rewarded r.nonce v (r.fee / r.votes.length))) s
  else s

/-- `OutgoingExternalDataTxExecuted` (external_data.go 75-159).  The record of finished transactions is not modelled; the
data for the callback is the `answered` event. -/
def execute (env : Env) (s : State) (r : Req) (c : Claim) : State :=
  reward env { remove (cancelOlder s r) r with log := .answered r.nonce c r.votes :: (remove (cancelOlder s r) r).log } r

/-- Subtraction of `uint64`. -/
def sub64 (a b : Nat) : Nat := (a + (2 ^ 64 - b)) % 2 ^ 64

/-- abci.go 652, 659: neither overdue nor too early. -/
def inWindow (height : Nat) (r : Req) : Bool := !decide (r.timeout < height) && !decide (height < sub64 r.timeout 50)

/-- abci.go 667-701: for a request with a best claim. -/
def decideReq (env : Env) (s : State) (r : Req) (c : Claim) (x : Nat × Bool) : State × Nat :=
  (if x.2 then execute env s r c else s, x.1)

/-- The body of the loop over the requests (abci.go 650-702) with the power counted so far, which is not reset between the
requests (648). -/
def visit (env : Env) (x : State × Nat) (r : Req) : State × Nat :=
  if r.timeout < x.1.height then (remove (refund env x.1 r) r, x.2)
  else if x.1.height < sub64 r.timeout 50 then x
  else
    match best env r with
    | none => x
    | some c => decideReq env x.1 r c (count env r.votes x.2)

/-- `executeExternalDataTxs` (abci.go 631-703) for a chain of type "evm", at the end of the next block. -/
def endBlock (env : Env) (s : State) : State :=
  ((sortBy (fun a b => decide (a.nonce ≤ b.nonce)) s.reqs).foldl (visit env) ({ s with height := s.height + 1 }, 0)).1

/-- Steps of the chain.
* `ask sender contract fee`: an accepted call of the precompile `requestData` (precompiles/hyperion/methods.go 257-404):
  the fee moves into the module, the timeout is 99 blocks later (318, 387; this is during the block after `height`);
* `skip`: another user of the nonce counter (a withdrawal batch, batch.go 62);
* `claim`: `ExternalDataClaim` (msg_server_hyperion.go 532-575) of an orchestrator of a bonded validator;
* `endBlock`. -/
inductive Op where
  | ask (sender contract fee : Nat)
  | skip
  | claim (nonce contract : Nat) (c : Claim)
  | endBlock (env : Env)

/-- external_data.go 32-56. -/
def ask (s : State) (sender contract fee : Nat) : State :=
  { s with
    reqs := ⟨s.last + 1, contract, sender, fee, s.height + 1 + 99, []⟩ :: s.reqs
    last := s.last + 1
    held := s.held + fee
    log := .asked (s.last + 1) sender fee :: s.log }

/-- msg_server_hyperion.go 557-572. -/
def addClaim (nonce contract : Nat) (c : Claim) (r : Req) : Req :=
  if r.nonce = nonce ∧ r.contract = contract ∧ ¬ c.orch ∈ r.votes then { r with claims := r.claims ++ [c] } else r

/-- One step. -/
def step (s : State) : Op → State
  | .ask sender contract fee => ask s sender contract fee
  | .skip => { s with last := s.last + 1 }
  | .claim n contract c => { s with reqs := s.reqs.map (addClaim n contract c) }
  | .endBlock env => endBlock env s

/-- The state after a history, newest step first. -/
def run : List Op → State
  | [] => ⟨[], 0, 0, 0, []⟩
  | op :: ops => step (run ops) op

end Hyperion.External
