/-!
# Weights of assets for staking

Governance keeps a list of assets that can be staked, each with a weight (helios-chain/x/erc20/keeper/whitelist.go,
helios-chain/x/erc20/keeper/msg_server.go 356-527, helios-chain/x/erc20/proposal_handler.go 33-170, which has the same code a second time).
Voting power of a delegation is its weighted amount; the module tells the staking module how weighted amounts change whenever a weight
does (whitelist.go 254-265).

The staking module is that of a changed SDK which is not in the repository. `UpdateAssetWeight` is modelled as its arguments say: weighted
amounts are raised or lowered by the given share of themselves, or divided by the weight they had. Exact fractions stand for its numbers. The
weight for new delegations is that of the list, and only assets that are not archived can be delegated (whitelist.go 212-222).

Weights are computed in the code with numbers of type float64. Here they are whole numbers, which is meant for weights below `2^48`: there
the products, cut off to whole numbers, are the same. This is not proved here; it was checked by running for all weights up to two million and
for random samples up to `2^52`. Overflow of weights is not modelled. Neither is the check that the contract of an asset exists, nor
that a message with several changes fails as a whole.
-/
namespace Erc20.Weights

structure Asset where
  weight : Nat
  archived : Bool
deriving DecidableEq

/-- A delegation of `base` of an asset; its weighted amount is `base * num / den`. -/
structure Deleg where
  denom : Nat
  base : Nat
  num : Nat
  den : Nat
deriving DecidableEq

/-- Assets by denomination, and all delegations. -/
structure St where
  assets : Nat → Option Asset
  delegs : List Deleg

def init : St := { assets := fun _ => none, delegs := [] }

def setAt {α : Type} (f : Nat → α) (i : Nat) (x : α) : Nat → α := fun j => if j = i then x else f j

/-- The staking module multiplies the weighted amounts of a denomination by `p / q`. -/
def scale (l : List Deleg) (d p q : Nat) : List Deleg :=
  l.map (fun x => if x.denom = d then { x with num := x.num * p, den := x.den * q } else x)

inductive Magnitude where
  | small | medium | high
deriving DecidableEq

/-- The factors 0.05, 0.15 and 0.30 in hundredths (msg_server.go 486-495). -/
def Magnitude.percent : Magnitude → Nat
  | .small => 5
  | .medium => 15
  | .high => 30

/-- `fmt.Sprintf("%.2f", 1/w)` in hundredths: rounded to nearest, ties to even (msg_server.go 511). -/
def oneOver (w : Nat) : Nat :=
  let q := 100 / w
  let r := 100 % w
  if 2 * r < w then q else if w < 2 * r then q + 1 else if q % 2 = 0 then q else q + 1

/-- getAdjustmentFactors and applyWeightAdjustment (msg_server.go 483-527): the new weight, and the share by which weighted amounts change, in
hundredths. Below ten the weight changes by one. `none` is an error: the least weight is reached, or the weight is zero, which
makes the factor infinite and its conversion panic. -/
def adjust (w : Nat) (m : Magnitude) (up : Bool) : Option (Nat × Nat) :=
  if w < 10 then
    if w = 0 then none
    else if up then some (w + 1, oneOver w)
    else if w = 1 then none
    else some (w - 1, oneOver w)
  else
    let by_ := w * m.percent / 100
    some (if up then w + by_ else w - by_, m.percent)

/-- UpdateAssetConsensus for one update (msg_server.go 436-480); archived assets are updated as well. -/
def update (s : St) (d : Nat) (m : Magnitude) (up : Bool) : St :=
  match s.assets d with
  | none => s
  | some a =>
    match adjust a.weight m up with
    | none => s
    | some (w, pct) =>
      { assets := setAt s.assets d (some { a with weight := w }),
        delegs := scale s.delegs d (if up then 100 + pct else 100 - pct) 100 }

/-- ArchiveAssetInConsensusWhitelist through RemoveAssetConsensus (whitelist.go 48-64, 85-127): the weight becomes one and weighted amounts are
divided by the weight there was. -/
def remove (s : St) (d : Nat) : St :=
  match s.assets d with
  | none => s
  | some a =>
    if a.archived then s
    else if a.weight ≤ 1 then { s with assets := setAt s.assets d (some { weight := 1, archived := true }) }
    else { assets := setAt s.assets d (some { weight := 1, archived := true }), delegs := scale s.delegs d 1 a.weight }

/-- AddAssetToConsensusWhitelist (whitelist.go 16-45, 129-181): a new asset is stored as given; an archived one becomes active with the new
weight, and weighted amounts are raised by `weight - 1` times themselves. -/
def add (s : St) (d w : Nat) : St :=
  match s.assets d with
  | none => { s with assets := setAt s.assets d (some { weight := w, archived := false }) }
  | some a =>
    if a.archived = false then s
    else if w = 0 then s
    else { assets := setAt s.assets d (some { weight := w, archived := false }), delegs := scale s.delegs d w 1 }

/-- The staking module takes a delegation of an active asset, at the weight of the list. -/
def delegate (s : St) (d b : Nat) : St :=
  match s.assets d with
  | none => s
  | some a => if a.archived then s else { s with delegs := s.delegs ++ [{ denom := d, base := b, num := a.weight, den := 1 }] }

/-- What can happen. Assets are added by a proposal of the older kind, which refuses weight zero (types/proposal.go 187-189), or by the message,
which does not (msg_server.go 358-390; the message has no ValidateBasic). -/
inductive Op where
  | propose (d w : Nat)
  | addMsg (d w : Nat)
  | remove (d : Nat)
  | update (d : Nat) (m : Magnitude) (up : Bool)
  | delegate (d b : Nat)

def step (s : St) : Op → St
  | .propose d w => if w = 0 then s else add s d w
  | .addMsg d w => add s d w
  | .remove d => remove s d
  | .update d m up => update s d m up
  | .delegate d b => delegate s d b

def run (s : St) : List Op → St
  | [] => s
  | op :: ops => run (step s op) ops

end Erc20.Weights
