/-!
# The base fee (`x/feemarket`)

Decimal numbers (`LegacyDec`) are natural numbers of units of 10^-18; they are never negative here.  The panics of
`LegacyDec` for numbers beyond 2^315 are not modelled.
-/
namespace FeeMarket

/-- 1 as a `LegacyDec`. -/
def one : Nat := 10 ^ 18

/-- `Params` (types/params.go 54-73).  `baseFee = none` is a nil decimal. -/
structure Params where
  noBaseFee : Bool
  denom : Nat
  elasticity : Nat
  baseFee : Option Nat
  enableHeight : Nat
  minPrice : Nat
  mult : Nat
deriving DecidableEq, Repr

/-- `Params.Validate` (types/params.go 90-108); signs and nil checks are in the types. -/
def Params.validate (p : Params) : Bool := decide (p.denom ≠ 0) && decide (p.mult ≤ one)

/-- What `CalculateBaseFee` ends with: a panic, a nil decimal or a fee. -/
inductive Calc where
  | panic
  | nil
  | fee (d : Nat)
deriving DecidableEq, Repr

/-- eip1559.go 42-47: `none` is an unlimited block. -/
def gasLimit (limit : Option Nat) : Nat := limit.getD (2 ^ 64 - 1)

/-- eip1559.go 69-81; `QuoInt` truncates and panics for 0. -/
def up (b target denom delta : Nat) : Calc :=
  if denom = 0 then .panic else .fee (b + max (b * delta / target / denom) one)

/-- eip1559.go 83-92. -/
def down (b target denom delta minPrice : Nat) : Calc :=
  if denom = 0 then .panic else .fee (max (b - b * delta / target / denom) minPrice)

/-- eip1559.go 57-92, after the target has been computed. -/
def move (b target denom wanted minPrice : Nat) : Calc :=
  if wanted = target then .fee b
  else if target = 0 then .fee 0
  else if target < wanted then up b target denom (wanted - target)
  else down b target denom (target - wanted) minPrice

/-- `CalculateBaseFee` (eip1559.go 14-93).  `wanted` is the stored gas of the parent block (40).  The test `IsUint64` of
the target (52) always succeeds for limits of `int64`. -/
def nextFee (p : Params) (height : Nat) (limit : Option Nat) (wanted : Nat) : Calc :=
  if p.noBaseFee || decide (height < p.enableHeight) then .nil
  else if height = p.enableHeight then
    match p.baseFee with
    | none => .nil
    | some b => .fee b
  else
    match p.baseFee with
    | none => .nil
    | some b =>
      if p.elasticity = 0 then .panic
      else move b (gasLimit limit / p.elasticity) p.denom wanted p.minPrice

/-- The persistent state of the module: the parameters, which contain the base fee, and the gas of the last block. -/
structure State where
  params : Params
  wanted : Nat
  height : Nat
deriving DecidableEq, Repr

/-- `BeginBlock` (keeper/abci.go 16-43) of the next block; `none` is a panic. -/
def beginBlock (s : State) (limit : Option Nat) : Option State :=
  match nextFee s.params (s.height + 1) limit s.wanted with
  | .panic => none
  | .nil => some { s with height := s.height + 1 }
  | .fee d => some { s with height := s.height + 1, params := { s.params with baseFee := some d } }

/-- abci.go 75-77: `max(gasWanted * MinGasMultiplier, gasUsed)`, truncated.  `Mul` of an integer rounds nothing. -/
def blockGas (mult wanted used : Nat) : Nat := max (wanted * mult) (used * one) / one

/-- `EndBlock` (keeper/abci.go 49-90): nothing is stored if a number exceeds `int64` (the error stops the chain: `none`). -/
def endBlock (s : State) (wanted used : Nat) : Option State :=
  if 2 ^ 63 ≤ wanted then none
  else if 2 ^ 63 ≤ used then none
  else some { s with wanted := blockGas s.params.mult wanted used }

/-- `AddTransientGasWanted` (keeper/keeper.go 89-93): the `uint64` sum of the gas limits of a block (it wraps). -/
def gasWanted : List Nat → Nat
  | [] => 0
  | g :: gs => (gasWanted gs + g) % 2 ^ 64

/-- One block: its gas limit, the gas limits of its transactions (newest first) and the gas the block used. -/
structure Block where
  limit : Option Nat
  wanted : List Nat
  used : Nat
deriving DecidableEq, Repr

/-- A whole block. -/
def block (s : State) (b : Block) : Option State :=
  match beginBlock s b.limit with
  | none => none
  | some t => endBlock t (gasWanted b.wanted) b.used

/-- A chain of blocks, the newest first. -/
def chain (s : State) : List Block → Option State
  | [] => some s
  | b :: bs => (chain s bs).bind (fun t => block t b)

/-- `GetBaseFee` (keeper/params.go 58-75) without the fee of old store versions: nil for a zero fee. -/
def getBaseFee (p : Params) : Option Nat :=
  if p.noBaseFee then none
  else
    match p.baseFee with
    | none => none
    | some b => if b = 0 then none else some b

/-- `FeeMarketWrapper.GetBaseFee` (x/evm/wrappers/feemarket.go 32-38) for a coin with 18 decimals: the integer part. -/
def evmBaseFee (p : Params) : Option Nat := (getBaseFee p).map (· / one)

end FeeMarket
