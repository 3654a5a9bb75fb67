import Verif.Rpc.Pages
/-!
# Pages of blocks and of transactions: what is claimed

What a page of a list is, and what the whole list is.
-/
namespace Pages
variable {B T : Type}

/-- Page `page` of a list cut into pages of `size`. Pages count from 1. -/
def pageOf (l : List T) (page size : Nat) : List T := (l.drop ((page - 1) * size)).take size

/-- The whole list: pending transactions first, then those in blocks, newest block first. -/
def listing (pending : List T) (chain : List (Block T)) : List T := pending ++ chain.flatMap (·.eth)

/-- The chain as it is searched: the blocks between two heights, in the order of the chain. -/
def between (chain : List (Block T)) (lo hi : Nat) : List (Block T) := chain.filter (fun b => decide (lo ≤ b.height ∧ b.height ≤ hi))

/-- A chain of height `latest` given by its blocks with transactions, newest first. -/
structure Chain (latest : Nat) (chain : List (Block T)) : Prop where
  newestFirst : (chain.map (·.height)).Pairwise (· > ·)
  inRange : ∀ b ∈ chain, 1 ≤ b.height ∧ b.height ≤ latest
  notEmpty : ∀ b ∈ chain, 0 < b.count

end Pages
