/-!
# Evidence of bad signatures

Model of /repo/helios-chain/x/hyperion/keeper/evidence.go, of the message that reaches it (keeper/msg_server_helios.go 440-466), of the checkpoints
(types/batch.go 14-63, types/types.go 160-) and of the places that file them (keeper/batch.go 62-77, 94-109, keeper/keeper.go 139-170).

Simplifications. Addresses, validators, hashes and signatures are numbers. The hash of the packed data and the recovery of a signer from a signature are parameters;
a signature that cannot be decoded has no signer. The field `asked` of the state is no part of the store: it is the list of all items the chain ever filed for
signing, kept for the specification. Stakes are slashed as in the SDK's 0.50 `Slash` for an infraction at the present height: the power of a bonded validator, in whole
units, times the fraction, rounded down, but not more than its tokens; a validator that is unbonded cannot be slashed. Panics of checkpoints of malformed validator sets are left out.
-/
namespace Evidence

abbrev Bridge := Nat
abbrev Addr := Nat
abbrev Val := Nat
abbrev Hash := Nat
abbrev Sig := Nat

/-- `OutgoingTransferTx`. -/
structure Tx where
  id : Nat
  sender : Addr
  dest : Addr
  amount : Nat
  fee : Nat
deriving DecidableEq

/-- `OutgoingTxBatch`. -/
structure Batch where
  bridge : Bridge
  nonce : Nat
  timeout : Nat
  token : Addr
  txs : List Tx
deriving DecidableEq

/-- `Valset`. -/
structure Valset where
  bridge : Bridge
  nonce : Nat
  members : List (Addr × Nat)
  rewardAmount : Nat
  rewardToken : Addr
deriving DecidableEq

/-- The two kinds of things validators sign (evidence.go 31-36). -/
inductive Subject
  | batch (b : Batch)
  | valset (v : Valset)
deriving DecidableEq

/-- The `HyperionId` of the subject, as its sender gives it. -/
def Subject.bridge : Subject → Bridge
  | .batch b => b.bridge
  | .valset v => v.bridge

/-- The data that is packed; the leading constants "checkpoint" and "transactionBatch" only tell the two kinds apart. -/
inductive Packed
  | batch (amounts : List Nat) (dests : List Addr) (fees : List Nat) (nonce : Nat) (token : Addr) (timeout : Nat)
  | valset (nonce : Nat) (addrs : List Addr) (powers : List Nat) (rewardAmount : Nat) (rewardToken : Addr)
deriving DecidableEq

/-- types/batch.go 26-53 and types/types.go 180-214: the argument `hyperionID` is not used, and the fees are all zero. -/
def pack : Subject → Packed
  | .batch b => .batch (b.txs.map (·.amount)) (b.txs.map (·.dest)) (b.txs.map fun _ => 0) b.nonce b.token b.timeout
  | .valset v => .valset v.nonce (v.members.map (·.1)) (v.members.map (·.2)) v.rewardAmount v.rewardToken

/-- The hash, the recovery of signers (types/ethereum_signer.go) and the tokens that count as one unit of power (`PowerReduction`). -/
structure Env where
  keccak : Packed → Hash
  recover : Hash → Sig → Option Addr
  unit : Nat

/-- `GetCheckpoint`. -/
def checkpoint (e : Env) (x : Subject) : Hash := e.keccak (pack x)

/-- Where a validator of the staking module stands. -/
inductive Status
  | bonded
  | unbonding
  | unbonded
deriving DecidableEq

/-- The archive of checkpoints (types/key.go 349-355), everything the chain ever asked to sign (for reference only), registrations by bridge and external address, stakes, and the fraction each
bridge takes for bad signatures (none: the bridge has no parameters). -/
structure State where
  past : List (Bridge × Hash) := []
  asked : List (Bridge × Subject) := []
  byEth : Bridge → Addr → Option Val := fun _ _ => none
  status : Val → Option Status := fun _ => none
  tokens : Val → Nat := fun _ => 0
  fraction : Bridge → Option Nat := fun _ => none

/-- `ConsensusPower`: whole units of a bonded validator. -/
def power (e : Env) (st : Status) (tokens : Nat) : Nat :=
  match st with
  | .bonded => tokens / e.unit
  | _ => 0

/-- The tokens a slash takes. -/
def burn (e : Env) (st : Status) (tokens fraction : Nat) : Nat := min (power e st tokens * e.unit * fraction / 1000000000000000000) tokens

/-- What becomes of evidence. -/
inductive Out
  | slashed (s : State) (v : Val)
  | refused
  | panics

/-- `checkBadSignatureEvidenceInternal` (evidence.go 43-92). The parameters of a bridge that has none are a nil pointer (line 85). -/
def evidence (e : Env) (s : State) (x : Subject) (sig : Sig) : Out :=
  if (x.bridge, checkpoint e x) ∈ s.past then .refused
  else match e.recover (checkpoint e x) sig with
    | none => .refused
    | some a =>
      match s.byEth x.bridge a with
      | none => .refused
      | some v =>
        match s.status v with
        | none => .refused
        | some st =>
          match s.fraction x.bridge with
          | none => .panics
          | some f =>
            if st = .unbonded then .refused
            else .slashed { s with tokens := fun w => if w = v then s.tokens w - burn e st (s.tokens w) f else s.tokens w } v

/-- A batch or validator set is stored for signing and its checkpoint is filed (batch.go 70-74, 102-106, keeper.go 148-156). Sets without members are not. -/
def file (e : Env) (s : State) (x : Subject) : State :=
  match x with
  | .valset { members := [], .. } => s
  | _ => { s with past := (x.bridge, checkpoint e x) :: s.past, asked := (x.bridge, x) :: s.asked }

/-- What happens on a chain: an item is to be signed, evidence is submitted, a validator registers, a stake or the parameters of a bridge change, and a restart from an export. -/
inductive Op
  | ask (x : Subject)
  | evidence (x : Subject) (sig : Sig)
  | register (b : Bridge) (v : Val) (a : Addr)
  | stake (v : Val) (st : Option Status) (tokens : Nat)
  | params (b : Bridge) (f : Option Nat)
  | restart

/-- One event. `restart`: the state is exported and the chain starts anew from it; the batches and validator sets are in the export, the checkpoints are not, and
the import files none (keeper/genesis.go 60-100). -/
def step (e : Env) (s : State) : Op → State
  | .ask x => file e s x
  | .evidence x sig =>
    match evidence e s x sig with
    | .slashed s' _ => s'
    | _ => s
  | .register b v a => { s with byEth := fun b' a' => if b' = b ∧ a' = a then some v else s.byEth b' a' }
  | .stake v st t => { s with status := fun w => if w = v then st else s.status w, tokens := fun w => if w = v then t else s.tokens w }
  | .params b f => { s with fraction := fun b' => if b' = b then f else s.fraction b' }
  | .restart => { s with past := [] }

/-- A history. -/
def run (e : Env) (s : State) (os : List Op) : State := os.foldl (step e) s

end Evidence
