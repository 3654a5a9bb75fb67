import Verif.Lib.KV
/-!
# The history of fees

Models `FeeHistory` (/repo/helios-chain/rpc/backend/chain_info.go, lines 184-323) with its cache, and `processBlock`
(/repo/helios-chain/rpc/backend/utils.go, lines 105-209).

Percentiles are whole numbers of per cent and the arithmetic with them exact (they are floating-point numbers in
the code). Sums of gas do not reach 2^64. Every block has a base fee. A gas ratio is kept as gas used and gas limit.
The cache has no lock in the code, though requests are served concurrently; here they come one after the other.
-/

namespace FeeHistory

/-- A block: base fee, gas used, gas limit and, for each of its Ethereum messages, the gas of its transaction and
the tip (utils.go lines 162-186; tips may be negative for transactions that failed). -/
structure Info where
  base : Nat
  used : Nat
  limit : Nat
  items : List (Nat × Int)
  deriving DecidableEq, Repr

/-- `OneFeeHistory` (/repo/helios-chain/rpc/types/types.go lines 146-150). -/
structure One where
  base : Nat
  next : Nat
  used : Nat
  limit : Nat
  rewards : List Int
  deriving DecidableEq, Repr

/-- A node: newest height, its blocks, and the cache. -/
structure Node where
  latest : Nat
  info : Nat → Info
  cache : List (Nat × One)

/-- Lines 201-204: go on until the gas so far reaches `need` or the last entry. -/
def advance (need : Nat) : (sum : Nat) → (tip : Int) → List (Nat × Int) → Nat × Int × List (Nat × Int)
  | sum, tip, [] => (sum, tip, [])
  | sum, tip, e :: rest => if sum < need then advance need (sum + e.1) e.2 rest else (sum, tip, e :: rest)

/-- Lines 199-206: for one percentile after the other, never going back. -/
def rewardLoop : (sum : Nat) → (tip : Int) → List (Nat × Int) → List Nat → List Int
  | _, _, _, [] => []
  | sum, tip, rest, need :: needs =>
    let s := advance need sum tip rest
    s.2.1 :: rewardLoop s.1 s.2.1 s.2.2 needs

/-- The gas a percentile stands for (line 200). -/
def needOf (used p : Nat) : Nat := used * p / 100

/-- The rewards of a block (utils.go lines 151-206); `arrange` is the sorting. -/
def rewards (arrange : List (Nat × Int) → List (Nat × Int)) (i : Info) (ps : List Nat) : List Int :=
  match arrange i.items with
  | [] => ps.map fun _ => 0
  | e :: rest => rewardLoop e.1 e.2 rest (ps.map (needOf i.used))

/-- `processBlock` (utils.go lines 105-209). The next base fee is computed by go-ethereum's `CalcBaseFee` from the
header of the newest block, whose gas limit and gas used are always zero (`EthHeaderFromTendermint`,
/repo/helios-chain/rpc/types/utils.go lines 71-96): gas used equals the target, so it is the base fee there. -/
def process (arrange : List (Nat × Int) → List (Nat × Int)) (n : Node) (i : Info) (ps : List Nat) : Option One :=
  if i.limit = 0 then none
  else some ⟨i.base, (n.info n.latest).base, i.used, i.limit, rewards arrange i ps⟩

/-- `TendermintBlockByNumber` (/repo/helios-chain/rpc/backend/blocks.go lines 224-246): zero is the newest. -/
def fetch (n : Node) (id : Nat) : Option Info :=
  if id = 0 then some (n.info n.latest) else if id ≤ n.latest then some (n.info id) else none

/-- The loop over blocks (chain_info.go lines 232-286), with the cache it leaves. -/
def collect (arrange : List (Nat × Int) → List (Nat × Int)) (ps : List Nat) : Node → List Nat → Node × Option (List One)
  | n, [] => (n, some [])
  | n, id :: ids =>
    match KV.get n.cache id with
    | some o =>
      match collect arrange ps n ids with
      | (n', some os) => (n', some (o :: os))
      | (n', none) => (n', none)
    | none =>
      match (fetch n id).bind (fun i => process arrange n i ps) with
      | none => (n, none)
      | some o =>
        match collect arrange ps { n with cache := KV.set n.cache id o } ids with
        | (n', some os) => (n', some (o :: os))
        | (n', none) => (n', none)

/-- What a request ends with: a crash, an error, or the oldest block, base fees, gas ratios and rewards. -/
inductive Answer
  | panic
  | error
  | ok (oldest : Nat) (bases : List (Option Nat)) (ratios : List (Nat × Nat)) (rewards : List (List Int))
  deriving DecidableEq, Repr

/-- The rewards of a cached block for as many percentiles as are asked for (lines 240-249 and 277-284). -/
def row (ps : List Nat) (o : One) : List Int := (List.range ps.length).map fun j => (o.rewards[j]?).getD 0

/-- Lines 235-236, 274-275: each block writes its base fee and the next one, which the following block overwrites. -/
def bases (os : List One) : List (Option Nat) :=
  os.map (fun o => some o.base) ++ [(os.getLast?).map fun o => o.next]

/-- Lines 299-321: blocks too old leave the cache. -/
def evict (cap : Nat) (n : Node) : Node :=
  { n with cache := n.cache.filter fun e => decide (n.latest - e.1 ≤ cap) }

/-- The newest block asked for (lines 192-200): negative numbers are names of the newest block. -/
def stopOf (n : Node) (last : Int) : Int := if last < 0 then n.latest else last

/-- How many blocks (lines 208-210). -/
def blocksOf (stop count : Int) : Int := if stop + 1 < count then stop + 1 else count

/-- The blocks and the answer (lines 231-323). -/
def gather (arrange : List (Nat × Int) → List (Nat × Int)) (cap : Nat) (n : Node) (start blocks : Nat) (ps : List Nat) :
    Node × Answer :=
  match collect arrange ps n (List.range' start blocks) with
  | (n', none) => (n', .error)
  | (n', some os) =>
    (evict cap n', .ok start (bases os) (os.map fun o => (o.used, o.limit)) (os.map (row ps)))

/-- `FeeHistory` (chain_info.go lines 187-323). `count` is the number of blocks as an `int64`; a negative one makes
`make` panic (line 216). -/
def ask (arrange : List (Nat × Int) → List (Nat × Int)) (cap : Nat) (n : Node) (last count : Int) (ps : List Nat) :
    Node × Answer :=
  if (cap : Int) < count then (n, .error)
  else if blocksOf (stopOf n last) count < 0 then (n, .panic)
  else gather arrange cap n (stopOf n last + 1 - blocksOf (stopOf n last) count).toNat
    (blocksOf (stopOf n last) count).toNat ps

/-- What happens to a node: a block is added, or somebody asks. -/
inductive Op
  | block (i : Info)
  | ask (last count : Int) (ps : List Nat)

/-- One step. -/
def step (arrange : List (Nat × Int) → List (Nat × Int)) (cap : Nat) (n : Node) : Op → Node
  | .block i => { n with latest := n.latest + 1, info := fun h => if h = n.latest + 1 then i else n.info h }
  | .ask last count ps => (ask arrange cap n last count ps).1

/-- A history, the newest step first. -/
def run (arrange : List (Nat × Int) → List (Nat × Int)) (cap : Nat) (n : Node) : List Op → Node
  | [] => n
  | o :: os => step arrange cap (run arrange cap n os) o

end FeeHistory
