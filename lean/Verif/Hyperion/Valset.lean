import Verif.Hyperion.Keys
import Verif.Lib.KV
import Verif.Lib.Sort
/-!
# Validator sets published to the counterparty chain (`x/hyperion`)

The relative powers of a validator set, the distance between two sets and the end-of-block code that requests and
prunes sets.  One counterparty chain; strings are byte lists.
-/
namespace Hyperion.Valset
open StableSort

/-- `BridgeValidator` (types.pb.go; helios-chain/x/hyperion/types/types.go 24-51): power and Ethereum address (the text). -/
structure Member where
  power : Nat
  addr : Str
deriving DecidableEq, Repr

/-- A bonded validator as `GetCurrentValset` sees it (keeper.go 863-871): its last power (staking keeps it as a
non-negative `int64`) and its Ethereum address on this chain if it has registered one. -/
structure Val where
  power : Nat
  eth : Option Str
deriving DecidableEq, Repr

/-- keeper.go 868-870: only validators with a registered address become members. -/
def keyed : List Val → List Member
  | [] => []
  | v :: vs =>
    match v.eth with
    | some a => ⟨v.power, a⟩ :: keyed vs
    | none => keyed vs

/-- keeper.go 862-871: the `uint64` sum of the powers of the members (it wraps). -/
def total : List Member → Nat
  | [] => 0
  | m :: ms => (m.power + total ms) % 2 ^ 64

/-- `math.MaxUint32`. -/
def maxU32 : Nat := 4294967295

/-- keeper.go 878: `NewUint(p).MulUint64(MaxUint32).QuoUint64(total).Uint64()`.  `QuoUint64` panics for total 0 and
`Uint64` for results of 2^64 and more: `none`. -/
def norm1 (t p : Nat) : Option Nat :=
  if t = 0 then none else if p * maxU32 / t < 2 ^ 64 then some (p * maxU32 / t) else none

/-- keeper.go 876-879: the loop over all members. -/
def normalise (t : Nat) : List Member → Option (List Member)
  | [] => some []
  | m :: ms =>
    match norm1 t m.power, normalise t ms with
    | some q, some ms' => some (⟨q, m.addr⟩ :: ms')
    | _, _ => none

/-- types.go 57-65 with ethereum.go 27-30: greater power first, equal powers by address bytes. -/
def memberLe (a b : Member) : Bool :=
  if a.power = b.power then !(blt b.addr a.addr) else decide (b.power < a.power)

/-- `GetCurrentValset` (keeper.go 853-905): the members of the current set; `none` is a panic.  The reward (881-901) is
not modelled here. -/
def current (vals : List Val) : Option (List Member) :=
  (normalise (total (keyed vals)) (keyed vals)).map (sortBy memberLe)

/-- types.go 82-86: the map from addresses to powers of the first set; a repeated address keeps the last power. -/
def powersOf (b : List Member) : List (Str × Int) := b.foldl (fun m x => KV.set m x.addr (x.power : Int)) []

/-- types.go 91-95. -/
def subtract (m : List (Str × Int)) (x : Member) : List (Str × Int) :=
  match KV.get m x.addr with
  | some v => KV.set m x.addr (v - x.power)
  | none => KV.set m x.addr (-(x.power : Int))

/-- `PowerDiff` (types.go 81-105) before the division by `MaxUint32`: the sum of the absolute values in the map, whatever
the iteration order.  The code adds in `float64`; with powers up to 2^32 and less than 2^20 members every value and partial
sum is an integer below 2^53, so the sums are exact. -/
def powerDiff (b c : List Member) : Nat := ((c.foldl subtract (powersOf b)).map (fun e => e.2.natAbs)).sum

/-- abci.go 85: `PowerDiff(...) > 0.05`.  For an integer `d` the floating quotient `d / 4294967295` exceeds the double
nearest to 0.05 exactly when `20 * d > 4294967295`: the quotients of the two neighbouring integers 214748364 and 214748365
differ from 0.05 by more than 10^-11. -/
def moved (b c : List Member) : Bool := decide (maxU32 < 20 * powerDiff b c)

/-- A stored request (`Valset` without reward and chain id). -/
structure VS where
  nonce : Nat
  height : Nat
  members : List Member
deriving DecidableEq, Repr

/-- What the chain stores about validator sets: the requests by nonce, the nonce of the latest request, the nonce of the
last set observed on the counterparty chain (`GetLastObservedValset`), the nonce offset parameter and the height of the
last block. -/
structure State where
  store : List (Nat × VS)
  latest : Nat
  observed : Option Nat
  offset : Nat
  height : Nat
deriving DecidableEq, Repr

/-- `GetLatestValset` (keeper.go 300-308). -/
def latestSet (s : State) : Option VS := KV.get s.store s.latest

/-- `SetValsetRequest`, `StoreValset` (keeper.go 142-189): nothing for an empty set. -/
def request (s : State) (ms : List Member) : State :=
  if ms.isEmpty then s
  else { s with
    store := KV.set s.store (s.height + s.offset) ⟨s.height + s.offset, s.height, ms⟩
    latest := s.height + s.offset }

/-- abci.go 84-85: the decision to request a new set.  `unbonding` is the last height at which a validator started to
unbond. -/
def wants (s : State) (unbonding : Nat) (ms : List Member) : Bool :=
  match latestSet s with
  | none => true
  | some l => unbonding == s.height || moved ms l.members

/-- `createValsets` (abci.go 68-89); `none` is a panic.  The current set is always computed, in the condition or in
`SetValsetRequest`. -/
def create (s : State) (unbonding : Nat) (vals : List Val) : Option State :=
  match current vals with
  | none => none
  | some ms => some (if wants s unbonding ms then request s ms else s)

/-- abci.go 581. -/
def prunable (s : State) (window observed : Nat) (v : VS) : Bool :=
  decide (v.nonce < observed) && decide (v.height < s.height - window)

/-- `pruneValsets` (abci.go 561-587) for one chain, with one signing window.  The code runs it for every chain with the
window of each of the chains. -/
def prune (s : State) (window : Nat) : State :=
  match s.observed with
  | none => s
  | some o =>
    if s.height < window then s
    else { s with store := s.store.filter (fun e => !prunable s window o e.2) }

/-- One step of the history of the chain.
* `block vals unbonding windows`: the next block, with its validators and the windows of all chains (abci.go 61-62);
* `observe n`: a claim that the counterparty chain now uses set `n` is applied (`SetLastObservedValset`);
* `setOffset n`: the administrative messages of msg_server_testnet.go 71, 316, 520 that change the nonce offset. -/
inductive Op where
  | block (vals : List Val) (unbonding : Nat) (windows : List Nat)
  | observe (n : Nat)
  | setOffset (n : Nat)
deriving DecidableEq, Repr

/-- One step; `none` is a panic. -/
def step (s : State) : Op → Option State
  | .block vals unbonding windows =>
    (create { s with height := s.height + 1 } unbonding vals).map (fun s => windows.foldl prune s)
  | .observe n => some { s with observed := some n }
  | .setOffset n => some { s with offset := n }

/-- A history from the newest step to the oldest; `none` after a panic. -/
def run : List Op → Option State
  | [] => some ⟨[], 0, none, 0, 0⟩
  | op :: ops => (run ops).bind (fun s => step s op)

end Hyperion.Valset
