/-!
# Pages of blocks and of transactions

The methods of the node that list blocks and Ethereum transactions page by page: `eth_getBlocksByPageAndSize`,
`eth_getTransactionsByPageAndSize` and `eth_getAccountTransactionsByPageAndSize` (helios-chain/rpc/backend/blocks.go 112-173,
helios-chain/rpc/backend/tx_info.go 668-764, helios-chain/rpc/backend/account_info.go 384-496).

Simplified: blocks and transactions are opaque. Errors of the node's own queries, time limits and the form of the answers are left out. Counts of
transactions do not overflow; positions, which come from the caller, do.
-/
namespace Pages
variable {B T : Type}

/-- Values of a `uint64`: arithmetic on positions wraps at this. -/
def wrap : Nat := 18446744073709551616

/-- The loop of blocks.go 153-170: `n` blocks downwards from height `i`. The first that is not to be had ends it with an error. CometBFT has no block
at height 0, and none it has pruned. -/
def fetch (get : Nat → Option B) : Nat → Nat → Option (List B)
  | _, 0 => some []
  | i, n + 1 => match get i with
    | none => none
    | some b => (fetch get (i - 1) n).map (b :: ·)

/-- blocks.go 112-173. `get` is the block store with the results, `latest` the height of the chain. -/
def blockPage (get : Nat → Option B) (latest page size : Nat) : Option (List B) :=
  if page = 0 ∨ size = 0 then none
  else if 100 < size then none
  else if latest < (page - 1) * size % wrap then none
  else
    let start := latest - (page - 1) * size % wrap
    let stop := (start + wrap - size + 1) % wrap
    let stop := if latest < stop then 0 else stop
    fetch get start (start + 1 - stop)

/-- A block with transactions: its height, the number of its Cosmos transactions (`NumTxs` in the block's metadata), and the Ethereum transactions that
`eth_getBlockByNumber` shows (none if it fails; blocks.go 305-342, 427-465). -/
structure Block (T : Type) where
  height : Nat
  count : Nat
  eth : List T
deriving DecidableEq, Repr

/-- The loops over transactions, tx_info.go 686-700 and 742-761: skips `skip`, then takes until `size` are there. `k` transactions came before, `acc`
holds what was taken. -/
def collect (skip size : Nat) : Nat → List T → List T → Nat × List T
  | k, acc, [] => (k, acc)
  | k, acc, x :: xs =>
    if skip ≤ k then
      if size ≤ (acc ++ [x]).length then (k, acc ++ [x]) else collect skip size (k + 1) (acc ++ [x]) xs
    else collect skip size (k + 1) acc xs

/-- The loop over blocks, tx_info.go 736-761: ends when `size` are there. -/
def collectBlocks (skip size : Nat) : Nat → List T → List (Block T) → List T
  | _, acc, [] => acc
  | k, acc, b :: bs =>
    if size ≤ acc.length then acc
    else collectBlocks skip size (collect skip size k acc b.eth).1 (collect skip size k acc b.eth).2 bs

/-- How many Cosmos transactions these blocks hold. -/
def counts (bs : List (Block T)) : Nat := (bs.map (·.count)).sum

/-- The search for blocks, tx_info.go 712-733: 1000 heights at a time, newest first, until so many Cosmos transactions are found that they could fill
the pages up to this one. `locate lo hi` is `BlockchainLocateNotEmptyBlocksInfo` of the node's CometBFT, whose source is not in the repository. The first
number bounds the rounds; `latest` of them are always enough. -/
def scan (locate : Nat → Nat → List (Block T)) (need : Nat) : Nat → Nat → Nat → List (Block T)
  | 0, _, _ => []
  | f + 1, hi, total =>
    if hi = 0 ∨ need ≤ total then []
    else
      let lo := hi - 1000 + 1
      let bs := (locate lo hi).filter (fun b => decide (0 < b.count))
      bs ++ if lo = 1 then [] else scan locate need f (lo - 1) (total + counts bs)

/-- tx_info.go 668-764. -/
def txPage (locate : Nat → Nat → List (Block T)) (pending : List T) (latest page size : Nat) : Option (List T) :=
  if page = 0 ∨ size = 0 ∨ 100 < size then none
  else
    let skip := (page - 1) * size % wrap
    let r := collect skip size 0 [] pending
    if size ≤ r.2.length then some r.2
    else some (collectBlocks skip size r.1 r.2 (scan locate ((skip + size) % wrap) latest latest 0))

/-- The search of account_info.go 442-468. It ends with the batch that reaches `floor`. -/
def scanTo (locate : Nat → Nat → List (Block T)) (floor need : Nat) : Nat → Nat → Nat → List (Block T)
  | 0, _, _ => []
  | f + 1, hi, total =>
    if hi = 0 ∨ need ≤ total then []
    else
      let lo := hi - 1000 + 1
      let bs := (locate lo hi).filter (fun b => decide (0 < b.count))
      bs ++ if lo ≤ floor then [] else scanTo locate floor need f (lo - 1) (total + counts bs)

/-- account_info.go 385-496 for an address that is not the wallet of a scheduled call (those are answered from the scheduled calls, 394-404). `mine`
says which transactions the address sent or received; `locate` is `BlockchainLocateTxsInfo` for the address. -/
def accountPage (mine : T → Bool) (locate : Nat → Nat → List (Block T)) (pending : List T) (latest page size : Nat) : Option (List T) :=
  if page = 0 ∨ size = 0 ∨ 100 < size then none
  else
    let skip := (page - 1) * size % wrap
    let r := collect skip size 0 [] (pending.filter mine)
    if size ≤ r.2.length then some r.2
    else some (collectBlocks skip size r.1 r.2
      ((scanTo locate (max 1 (latest - 1000)) ((skip + size) % wrap) latest latest 0).map fun b => { b with eth := b.eth.filter mine }))

end Pages
