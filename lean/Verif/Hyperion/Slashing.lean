/-!
# Slashing for missing confirmations

Models `valsetSlashing` and `batchSlashing` (helios-chain/x/hyperion/abci.go 325-560) with `GetUnslashedValsets` (keeper/keeper.go 359-398) and
`GetUnslashedBatches` (keeper/batch.go 485-520). What staking, the signing infos and the stores of the module say in a block is an environment;
the result is the list of slashes. Amounts are left out, and so is the wrap-around of the sum `UnbondingHeight + UnbondSlashingValsetsWindow` in 64 bits.
-/
namespace Hyperion.Slashing

/-- A validator as staking and slashing keep it: operator address, whether it is jailed, the start height in its signing info (`none`: there is
none), whether it is unbonding and since when. -/
structure Val where
  op : Nat
  jailed : Bool
  joined : Option Int
  unbonding : Bool
  unbondingHeight : Nat
deriving DecidableEq, Repr

/-- A validator set request. -/
structure Req where
  nonce : Nat
  height : Nat
deriving DecidableEq, Repr

/-- A batch under its block key: chain, block, nonce. -/
structure Batch where
  chain : Nat
  block : Nat
  nonce : Nat
deriving DecidableEq, Repr

/-- What a block finds. `acc` is `sdk.AccAddressFromBech32` applied to an operator address in its text form, with the error ignored;
`orch` is `GetOrchestratorValidator`; `eth` is `GetEthAddressByValidator`; requests are in the order of their nonces and batches in the order of
their block keys, which is by chain and block; confirmations are Ethereum addresses for requests and orchestrators for batches. -/
structure Env where
  bonded : List Val
  queue : List Val
  acc : Nat → Nat
  orch : (chain : Nat) → Nat → Option Nat
  eth : (chain : Nat) → Nat → Option Nat
  reqs : (chain : Nat) → List Req
  batches : List Batch
  reqConfirms : (chain nonce : Nat) → List Nat
  batchConfirms : Batch → List Nat

/-- Parameters of a counterparty chain. -/
structure Params where
  chain : Nat
  valsetWindow : Nat
  batchWindow : Nat
  unbondWindow : Nat
deriving DecidableEq, Repr

/-- `GetUnslashedValsets` (keeper.go 359-398): the iterator runs over nonces from the last one slashed up to `maxHeight`, which is a height. -/
def unslashedReqs (reqs : List Req) (last maxHeight : Nat) : List Req :=
  (reqs.filter (fun r => decide (last ≤ r.nonce) && decide (r.nonce < maxHeight))).filter (fun r => decide (last < r.nonce))

/-- Whether a bonded validator is slashed for a request (abci.go 347-388). -/
def missedByBonded (e : Env) (chain : Nat) (r : Req) (v : Val) : Bool :=
  if v.jailed then false
  else match v.joined with
    | none => false
    | some start =>
      if start < (r.height : Int) then
        match e.orch chain (e.acc v.op) with
        | none => false
        | some val => !(e.reqConfirms chain r.nonce).any (fun c => e.eth chain val == some c)
      else false

/-- Whether an unbonding validator is slashed for a request (abci.go 421-452). -/
def missedByUnbonding (e : Env) (chain : Nat) (window : Nat) (r : Req) (v : Val) : Bool :=
  match e.orch chain (e.acc v.op) with
  | none => false
  | some _ =>
    match v.joined with
    | none => false
    | some start =>
      if start < (r.height : Int) ∧ v.unbonding ∧ r.height < v.unbondingHeight + window then
        !(e.reqConfirms chain r.nonce).any (fun c => e.eth chain v.op == some c)
      else false

/-- The slashes for one request. -/
def slashReq (e : Env) (p : Params) (r : Req) : List (Nat × Nat) :=
  ((e.bonded.filter (missedByBonded e p.chain r)) ++ (e.queue.filter (missedByUnbonding e p.chain p.unbondWindow r))).map (fun v => (r.nonce, v.op))

/-- `valsetSlashing` (abci.go 325-480): the slashes, as pairs of nonce and operator, and the last slashed nonce. -/
def valsetSlashing (e : Env) (p : Params) (height last : Nat) : List (Nat × Nat) × Nat :=
  if p.valsetWindow < height then
    let todo := unslashedReqs (e.reqs p.chain) last (height - p.valsetWindow)
    (todo.flatMap (slashReq e p), (todo.getLast?.map (·.nonce)).getD last)
  else ([], last)

/-- `GetUnslashedBatches` (batch.go 485-520): the bounds are compared with the chain, the first part of the key
(`Hyperion.slashed_batches_selected_by_chain`). -/
def unslashedBatches (batches : List Batch) (last maxHeight : Nat) : List Batch :=
  (batches.filter (fun b => decide (last ≤ b.chain) && decide (b.chain < maxHeight))).filter (fun b => decide (last < b.block))

/-- Whether a bonded validator is slashed for a batch (abci.go 506-535). -/
def missedBatch (e : Env) (b : Batch) (v : Val) : Bool :=
  match e.orch b.chain (e.acc v.op) with
  | none => false
  | some _ =>
    if (match v.joined with | none => false | some start => decide ((b.block : Int) < start)) then false
    else !(e.batchConfirms b).any (fun o => e.orch b.chain o == some v.op)

/-- The slashes for one batch. -/
def slashBatch (e : Env) (b : Batch) : List (Batch × Nat) := (e.bonded.filter (missedBatch e b)).map (fun v => (b, v.op))

/-- `batchSlashing` (abci.go 482-560). -/
def batchSlashing (e : Env) (p : Params) (height last : Nat) : List (Batch × Nat) × Nat :=
  if p.batchWindow < height then
    let todo := unslashedBatches e.batches last (height - p.batchWindow)
    (todo.flatMap (slashBatch e), (todo.getLast?.map (·.block)).getD last)
  else ([], last)

/-- Several blocks, each with its environment and parameters: all slashes for requests of one chain. -/
def runReqs : (last : Nat) → List (Env × Params × Nat) → List (Nat × Nat)
  | _, [] => []
  | last, (e, p, h) :: bs => (valsetSlashing e p h last).1 ++ runReqs (valsetSlashing e p h last).2 bs

/-- All slashes for batches. -/
def runBatches : (last : Nat) → List (Env × Params × Nat) → List (Batch × Nat)
  | _, [] => []
  | last, (e, p, h) :: bs => (batchSlashing e p h last).1 ++ runBatches (batchSlashing e p h last).2 bs

end Hyperion.Slashing
