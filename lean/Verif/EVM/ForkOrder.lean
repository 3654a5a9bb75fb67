/-!
# The schedule of forks

The configuration of forks and its validation (x/evm/types/chain_config.go). go-ethereum's CheckConfigForkOrder is not
in the repository; it is modelled from knowledge of version 1.10.26.
-/

namespace ForkOrder

/-- The forks of a configuration (chain_config.go 36-54). -/
inductive Fork where
  | homestead | dao | eip150 | eip155 | eip158 | byzantium | constantinople | petersburg | istanbul | muirGlacier
  | berlin | london | arrowGlacier | grayGlacier | mergeNetsplit | shanghai | cancun
  deriving DecidableEq

/-- A configuration: the block of each fork, if any, the hash kept for EIP 150, and the chain's number. -/
structure Config where
  block : Fork → Option Int
  hash : List Nat
  chainId : Nat

/-- `getBlockValue` (chain_config.go 132-138): negative is as good as none. -/
def blockValue (b : Option Int) : Option Nat :=
  match b with
  | none => none
  | some x => if x < 0 then none else some x.toNat

/-- `EthereumConfig` (chain_config.go 29-59): the number of the chain given, if any, and the blocks. -/
def toEth (c : Config) (chainId : Option Nat) : Nat × (Fork → Option Nat) :=
  (chainId.getD c.chainId, fun f => blockValue (c.block f))

/-- The order in which CheckConfigForkOrder goes through the forks. -/
def order : List Fork :=
  [.homestead, .dao, .eip150, .eip155, .eip158, .byzantium, .constantinople, .petersburg, .istanbul, .muirGlacier,
   .berlin, .london, .arrowGlacier, .grayGlacier, .mergeNetsplit, .shanghai, .cancun]

/-- The forks that may be left out. -/
def optional : Fork → Bool
  | .dao | .muirGlacier | .arrowGlacier | .grayGlacier | .mergeNetsplit | .shanghai | .cancun => true
  | _ => false

/-- The test of a fork against the last one: not before it, and not at all if that is missing. -/
def follows (last cur : Option Nat) : Bool :=
  match last, cur with
  | none, some _ => false
  | some a, some b => decide (a ≤ b)
  | _, none => true

/-- The test is left out for the first fork. -/
def against (last : Option (Option Nat)) (cur : Option Nat) : Bool :=
  match last with
  | none => true
  | some l => follows l cur

/-- The loop of CheckConfigForkOrder; `last` is none before the first fork. -/
def check (e : Fork → Option Nat) : Option (Option Nat) → List Fork → Bool
  | _, [] => true
  | last, f :: fs =>
    against last (e f) && check e (if !optional f || (e f).isSome then some (e f) else last) fs

/-- `validateBlock` (chain_config.go 212-225). -/
def validateBlock (b : Option Int) : Bool :=
  match b with
  | none => true
  | some x => !decide (x < 0)

/-- `validateHash` (chain_config.go 204-210); which characters are space is a parameter. -/
def validateHash (space : Nat → Bool) (h : List Nat) : Bool := !(!h.isEmpty && h.all space)

/-- `Validate` (chain_config.go 142-202). -/
def validate (space : Nat → Bool) (c : Config) : Bool :=
  order.all (fun f => validateBlock (c.block f)) && validateHash space c.hash && check (toEth c none).2 none order

/-- The default (chain_config.go 61-111): everything from block 0 on. -/
def default (chainId : Nat) : Config := { block := fun _ => some 0, hash := 48 :: 120 :: List.replicate 64 48, chainId }

/-- `setChainConfig` (chain_config.go 116-130): the configuration in use is set once. -/
def set (space : Nat → Bool) (cur : Option Config) (new : Option Config) : Option Config × Bool :=
  match cur with
  | some c => (some c, false)
  | none =>
    let c := new.getD (default 1234)
    if validate space c then (some c, true) else (none, false)

/-- Whether a fork is active at a height (go-ethereum's `isForked`). -/
def active (e : Fork → Option Nat) (f : Fork) (height : Nat) : Bool :=
  match e f with
  | none => false
  | some b => decide (b ≤ height)

end ForkOrder
