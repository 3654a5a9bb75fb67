import Verif.Hyperion.Claims
import Verif.Lib.KV
import Verif.Lib.Sort
/-!
# Voting on claims

Models `helios-chain/x/hyperion/keeper/attestation.go` (`Attest` 22-123, `TryAttestation` 189-268), the claim handlers of
`msg_server_hyperion.go` (426-680), `attestationTally` and `pruneAttestations` of `helios-chain/x/hyperion/abci.go` (96-259),
the observed and skipped nonces of `keeper.go` (1407-1477, 1538-1546) and the replacement of a bridge contract
(`UpdateChainSmartContract`, msg_server_testnet.go 45-117), the change of a chain's average block time
(`UpdateAverageBlockTime`, msg_server_testnet.go 798-830), and the cleaning both cause (abci.go 44-56).

The effect of an applied claim on the rest of the bridge is modelled in `Pool.lean`; here a claim that takes effect is put
into an output list.  Validators and orchestrators are numbers.  What the staking module and the orchestrator registry say
may change from block to block and is part of the environment of every operation.  Left out: a validator's last event, the
RPC lists, events, the arbitrary message inside the data of a deposit.
-/
namespace Hyperion.Attest
open Hyperion

/-- What the rest of the chain says while an operation is executed. -/
structure Env where
  /-- `ctx.BlockHeight()`. -/
  height : Nat
  /-- `StakingKeeper.GetLastValidatorPower`, zero for an unknown validator. -/
  power : Nat → Nat
  /-- `GetBondedValidatorsByPower`. -/
  bonded : List Nat
  /-- `GetEthAddressByValidator` of a chain and validator finds a key. -/
  keyed : Nat → Nat → Bool
  /-- `GetOrchestratorValidator` of a chain and orchestrator. -/
  validatorOf : Nat → Nat → Option Nat
  /-- `GetOrchestratorHyperionData` of a chain and voter finds data. -/
  hasData : Nat → Nat → Bool

/-- Chain, event nonce and claim hash: the key of an attestation (types/key.go 248-258). -/
abbrev Key := Nat × Nat × Str

/-- `types.Attestation`; a vote is the validator, the transaction hash beside it is left out. -/
structure Att where
  claim : Claim
  observed : Bool
  votes : List Nat
  deriving DecidableEq, Repr

/-- The stores. -/
structure State where
  atts : List (Key × Att)
  /-- Last observed event nonce of a chain. -/
  lastObs : Nat → Nat
  /-- Last observed height of the counterparty chain. -/
  lastHeight : Nat → Nat
  /-- Nonces marked as observed. -/
  marks : List (Nat × Nat)
  /-- Skipped nonces with the stored pair of numbers. -/
  skipped : List ((Nat × Nat) × (Nat × Nat))
  /-- The chain's state is to be cleaned at the next end of block (`AverageBlockTime > 0`). -/
  due : Nat → Bool

/-- Change one value of a function. -/
def upd {β : Type} (f : Nat → β) (k : Nat) (v : β) : Nat → β := fun x => if x = k then v else f x

/-- The key of a claim, given the hash function. -/
def keyOf (hash : Str → Str) (c : Claim) : Key := (c.hid, c.nonce, hash (claimPath c))

/-- `TESTNET_BLOCK_NUMBER_UPDATE_0` (helios-chain/testnet): later, a second vote for a claim is refused. -/
def voteCheckFrom : Nat := 34800

/-- From this height on nonces are marked as observed (keeper.go 1409, 1418). -/
def marksFrom : Nat := 244300

/-- `NonceAlreadyObserved` (keeper.go 1416-1423). -/
def marked (env : Env) (st : State) (hid nonce : Nat) : Bool :=
  decide (marksFrom ≤ env.height) && st.marks.contains (hid, nonce)

/-- `StoreNonceObserved` (keeper.go 1407-1414); the stored height is left out. -/
def storeMark (env : Env) (marks : List (Nat × Nat)) (hid nonce : Nat) : List (Nat × Nat) :=
  if env.height < marksFrom then marks else (hid, nonce) :: marks

/-- `Attest` (attestation.go 22-123) for a validator that is known. -/
def vote (hash : Str → Str) (env : Env) (st : State) (c : Claim) (val : Nat) : Option State :=
  let att := (KV.get st.atts (keyOf hash c)).getD ⟨c, false, []⟩
  if att.observed then none
  else if marked env st c.hid c.nonce then none
  else if decide (voteCheckFrom < env.height) && att.votes.contains val then none
  else some { st with atts := KV.set st.atts (keyOf hash c) { att with votes := att.votes ++ [val] } }

/-- The four claim handlers (msg_server_hyperion.go 426-530, 583-680): the orchestrator belongs to a bonded validator.
`ValidateBasic` is part of this step. The check of the data of a deposit is left out. -/
def submit (hash : Str → Str) (env : Env) (st : State) (c : Claim) : Option State :=
  if c.basic then
    match env.validatorOf c.hid c.orch with
    | none => none
    | some val => if env.bonded.contains val then vote hash env st c val else none
  else none

/-- `GetCurrentValsetTotalPower` (keeper.go 810-830). -/
def totalPower (env : Env) (hid : Nat) : Nat := ((env.bonded.filter (env.keyed hid)).map env.power).sum

/-- `GetRequiredPower` with 66 percent (attestation.go 182-184, 203). -/
def required (env : Env) (hid : Nat) : Nat := totalPower env hid * 66 / 100

/-- The loop over the votes (attestation.go 204-262): is the threshold met after some vote? -/
def reaches (env : Env) (req : Nat) : Nat → List Nat → Bool
  | _, [] => false
  | acc, v :: vs => if req ≤ acc + env.power v then true else reaches env req (acc + env.power v) vs

/-- The nonces between the last observed one and the new one, stored as skipped (attestation.go 236-240). The subtraction of
`uint64` numbers wraps when the new nonce is smaller; the loop then has no rounds. -/
def skipAll (skipped : List ((Nat × Nat) × (Nat × Nat))) (hid last nonce height : Nat) : List ((Nat × Nat) × (Nat × Nat)) :=
  (List.range' (last + 1) (nonce - (last + 1))).foldl (fun s n => KV.set s (hid, n) (last, height)) skipped

/-- The state after a claim was found to have enough votes (attestation.go 224-251). -/
def observe (hash : Str → Str) (env : Env) (st : State) (att : Att) : State :=
  let c := att.claim
  let last := st.lastObs c.hid
  { st with
    lastObs := if last < c.nonce then upd st.lastObs c.hid c.nonce else st.lastObs
    lastHeight := if last < c.nonce then upd st.lastHeight c.hid c.height else st.lastHeight
    skipped := KV.del (skipAll st.skipped c.hid last c.nonce c.height) (c.hid, c.nonce)
    marks := storeMark env st.marks c.hid c.nonce
    atts := KV.set st.atts (keyOf hash c) { att with observed := true } }

/-- `TryAttestation` (attestation.go 189-268). The output lists the claim if it takes effect. -/
def tryAtt (hash : Str → Str) (env : Env) (st : State) (att : Att) : State × List Claim :=
  if att.observed then (st, [])
  else if reaches env (required env att.claim.hid) 0 att.votes then (observe hash env st att, [att.claim])
  else (st, [])

/-- Order of byte strings. -/
def bytesLe : Str → Str → Bool
  | [], _ => true
  | _ :: _, [] => false
  | a :: as, b :: bs => if a < b then true else if b < a then false else bytesLe as bs

/-- Order of attestations: by nonce, then by hash. -/
def keyLe (a b : Key × Att) : Bool :=
  if a.1.2.1 < b.1.2.1 then true else if b.1.2.1 < a.1.2.1 then false else bytesLe a.1.2.2 b.1.2.2

/-- `GetAttestationMapping` and the sorting of its nonces (attestation.go 430-457, abci.go 218-235). -/
def attsOf (st : State) (hid : Nat) : List (Key × Att) :=
  StableSort.sortBy keyLe (st.atts.filter (fun e => decide (e.1.1 = hid)))

/-- The loop of `attestationTally` (abci.go 230-258). -/
def tallyLoop (hash : Str → Str) (env : Env) (st : State) : List (Key × Att) → State × List Claim
  | [] => (st, [])
  | e :: es =>
    let r := tryAtt hash env st e.2
    let rest := tallyLoop hash env r.1 es
    (rest.1, r.2 ++ rest.2)

/-- `attestationTally` (abci.go 213-259). -/
def tally (hash : Str → Str) (env : Env) (st : State) (hid : Nat) : State × List Claim :=
  tallyLoop hash env st (attsOf st hid)

/-- One pruned attestation (abci.go 123-124). -/
def pruneOne (hash : Str → Str) (env : Env) (st : State) (att : Att) : State :=
  { st with
    atts := KV.del st.atts (keyOf hash att.claim)
    marks := storeMark env st.marks att.claim.hid att.claim.nonce }

/-- The loop of `pruneAttestations` (abci.go 115-198): it ends when data of a voter for a pruned deposit are missing
(186-190). -/
def pruneLoop (hash : Str → Str) (env : Env) (last : Nat) (st : State) : List (Key × Att) → State
  | [] => st
  | e :: es =>
    if e.2.claim.nonce < last && e.2.observed then
      let st' := pruneOne hash env st e.2
      if e.2.claim.isDeposit && !e.2.votes.all (env.hasData e.2.claim.hid) then st'
      else pruneLoop hash env last st' es
    else pruneLoop hash env last st es

/-- `pruneAttestations` (abci.go 96-199). -/
def prune (hash : Str → Str) (env : Env) (st : State) (hid : Nat) : State :=
  pruneLoop hash env (st.lastObs hid) st (attsOf st hid)

/-- The cleaning of a chain's state (abci.go 44-56): the observed nonces of all chains go (keeper.go 1538-1546). -/
def cleaned (st : State) (hid : Nat) : State :=
  { st with
    due := upd st.due hid false
    marks := []
    atts := st.atts.filter (fun e => decide (e.1.1 ≠ hid)) }

/-- The cleaning takes place if it is due (abci.go 44). -/
def clean (st : State) (hid : Nat) : State := if st.due hid then cleaned st hid else st

/-- One chain's part of `EndBlocker` (abci.go 43-65) as far as claims are concerned. -/
def endBlock (hash : Str → Str) (env : Env) (st : State) (hid : Nat) : State × List Claim :=
  let r := tally hash env (clean st hid) hid
  (prune hash env r.1 hid, r.2)

/-- The operations. -/
inductive Op where
  /-- A claim message. -/
  | claim (c : Claim)
  /-- The end of a block, for one chain. -/
  | endBlock (hid : Nat)
  /-- `UpdateChainSmartContract`: a new contract starting at a height of the counterparty chain (not zero: the code
  subtracts one). -/
  | newContract (hid start : Nat)
  /-- `UpdateAverageBlockTime`. -/
  | blockTime (hid t : Nat)
  deriving DecidableEq, Repr

/-- One operation; the output lists the claims that take effect. -/
def step (hash : Str → Str) (st : State) (x : Env × Op) : State × List Claim :=
  match x.2 with
  | .claim c => ((submit hash x.1 st c).getD st, [])
  | .endBlock hid => endBlock hash x.1 st hid
  | .newContract hid start =>
    ({ st with
        lastObs := upd st.lastObs hid 1
        lastHeight := upd st.lastHeight hid (start - 1)
        due := upd st.due hid true }, [])
  | .blockTime hid t => ({ st with due := upd st.due hid (decide (0 < t)) }, [])

/-- A history. -/
def run (hash : Str → Str) (st : State) : List (Env × Op) → State × List Claim
  | [] => (st, [])
  | x :: xs =>
    let r := step hash st x
    let rest := run hash r.1 xs
    (rest.1, r.2 ++ rest.2)

/-- Nothing has been claimed; the last observed nonces and heights are given (`AddCounterpartyChainParams`,
msg_server_helios.go 341, 357). -/
def init (lastObs lastHeight : Nat → Nat) : State := ⟨[], lastObs, lastHeight, [], [], fun _ => false⟩

end Hyperion.Attest
