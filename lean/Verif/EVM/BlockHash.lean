/-!
# Hashes of earlier blocks

Contracts can ask for the hash of each of the last 256 blocks (instruction BLOCKHASH). The keeper answers from
the headers that the staking module keeps (`GetHashFn`, x/evm/keeper/state_transition.go 78-130).

Modelled with it: what the staking module of the SDK keeps (`TrackHistoricalInfo`), and the checks and the hash
of CometBFT's headers. Both are forks whose sources are not in the repository; the model follows versions 0.50 and
0.38. What the application's context holds of a header is therefore a parameter, `seen`, and `sdk50` is what
version 0.50 of the SDK makes of it.
-/

namespace BlockHash

/-- A block's header (CometBFT, types/block.go). Hashes and addresses are lists of bytes; time and chain are numbers. -/
structure Header where
  version : Nat
  chainId : Nat
  height : Nat
  time : Nat
  lastBlockId : List Nat
  lastCommit : List Nat
  data : List Nat
  evidence : List Nat
  validators : List Nat
  nextValidators : List Nat
  consensus : List Nat
  app : List Nat
  lastResults : List Nat
  proposer : List Nat
  deriving DecidableEq

/-- `hash`: the root of the tree of a header's fields, as a number. `seen`: what the application's context holds
of a header. `protocol`: CometBFT's `version.BlockProtocol`. -/
structure Env where
  hash : Header → Nat
  seen : Header → Header
  protocol : Nat

/-- The header of the context in version 0.50 of the SDK (baseapp/abci.go, `internalFinalizeBlock`): chain,
height, time, proposer, hash of the next validators and of the application's state; the other fields are empty. -/
def sdk50 (h : Header) : Header :=
  { h with version := 0, lastBlockId := [], lastCommit := [], data := [], evidence := [], validators := [],
           consensus := [], lastResults := [] }

/-- `ValidateHash` (CometBFT): empty or 32 bytes. -/
def hashOk (l : List Nat) : Bool := l.length = 0 ∨ l.length = 32

/-- `Header.ValidateBasic` (CometBFT), which `HeaderFromProto` ends with. Not modelled: the length of the chain's
name and the parts of the last block's identifier. -/
def valid (e : Env) (h : Header) : Bool :=
  h.version = e.protocol ∧ h.height ≠ 0 ∧ hashOk h.lastCommit ∧ hashOk h.data ∧ hashOk h.evidence ∧
  h.proposer.length = 20 ∧ hashOk h.validators ∧ hashOk h.nextValidators ∧ hashOk h.consensus ∧ hashOk h.lastResults

/-- `Header.Hash` (CometBFT): nothing, here 0, without the hash of the validators. -/
def headerHash (e : Env) (h : Header) : Nat := if h.validators = [] then 0 else e.hash h

/-- The chain: its height, the headers the staking module keeps by height, and, for reference only, the headers of
all blocks. -/
structure State where
  cur : Nat := 0
  infos : Nat → Option Header := fun _ => none
  blocks : Nat → Option Header := fun _ => none

/-- A function changed at one place. -/
def set (f : Nat → Option Header) (k : Nat) (v : Option Header) : Nat → Option Header :=
  fun i => if i = k then v else f i

/-- The loop of `TrackHistoricalInfo` (x/staking/keeper/historical_info.go of the SDK): from the newest height to
be dropped downwards, until one is missing. -/
def prune : Nat → (Nat → Option Header) → (Nat → Option Header)
  | 0, f => match f 0 with
    | none => f
    | some _ => set f 0 none
  | i + 1, f => match f (i + 1) with
    | none => f
    | some _ => prune i (set f (i + 1) none)

/-- The begin of a block: `TrackHistoricalInfo` with the parameter `HistoricalEntries`, here `n`. -/
def block (e : Env) (s : State) (n : Nat) (h : Header) : State :=
  let cur := s.cur + 1
  let kept := if n ≤ cur then prune (cur - n) s.infos else s.infos
  { cur := cur
    infos := if n = 0 then kept else set kept cur (some (e.seen h))
    blocks := set s.blocks cur (some h) }

/-- A history of blocks, each with the parameter in force. -/
def run (e : Env) (s : State) : List (Nat × Header) → State
  | [] => s
  | (n, h) :: rest => run e (block e s n h) rest

/-- `GetHashFn` (x/evm/keeper/state_transition.go 82-130) within a block: the current block's hash as announced by
CometBFT, hashes of earlier blocks from the kept headers, nothing (0) for later ones and beyond 63 bits. Queries,
whose context has no announced hash, are not modelled. -/
def hashFn (e : Env) (s : State) (k : Nat) : Nat :=
  if 9223372036854775807 < k then 0
  else if s.cur = k then
    match s.blocks k with
    | some h => headerHash e h
    | none => 0
  else if k < s.cur then
    match s.infos k with
    | none => 0
    | some x => if valid e x then headerHash e x else 0
  else 0

/-- The instruction BLOCKHASH (go-ethereum core/vm/instructions.go, `opBlockhash`). -/
def opcode (e : Env) (s : State) (k : Nat) : Nat :=
  let lower := if s.cur < 257 then 0 else s.cur - 256
  if 18446744073709551615 < k then 0
  else if lower ≤ k ∧ k < s.cur then hashFn e s k else 0

end BlockHash
