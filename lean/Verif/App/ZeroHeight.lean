/-!
# Exporting the state for a new chain from height zero

ExportAppStateAndValidators and prepForZeroHeightGenesis (app/export.go). One coin; amounts of the distribution module
in units of 10^-18. The distribution and staking modules are not in the repository; their part follows version 0.50 of
the SDK: withdrawals, the hooks for new validators and delegations, the reference counts of historical rewards, the
keys of validators and the panic on jailed validators in the power index.

Not modelled: the invariants of the crisis module, the rewards of the current period (they are zero when a delegation
is reinitialised, since each withdrawal begins a period), and the genesis of the modules that is written afterwards.
-/

namespace ZeroHeight

/-- 10^18: one coin. -/
def one : Nat := 1000000000000000000

/-- A validator in the staking and distribution modules: address in bytes, current period of rewards, outstanding
rewards, commission (a part of them), whether jailed, height at which it began to unbond. -/
structure Val where
  addr : List Nat
  period : Nat
  outstanding : Nat
  commission : Nat
  jailed : Bool
  unbonding : Nat
  deriving DecidableEq

/-- A delegation with the rewards it can withdraw. -/
structure Del where
  who : Nat
  val : List Nat
  reward : Nat
  deriving DecidableEq

/-- The state: validators, delegations, reference counts of historical rewards by validator and period (0: no record),
community pool, what was paid to accounts, the periods the export writes as starts of delegations, and the heights in redelegations,
unbonding delegations and signing infos. -/
structure State where
  vals : List Val
  dels : List Del
  refs : List Nat → Nat → Nat
  pool : Nat
  paid : Nat
  starts : List (Nat × List Nat × Nat)
  reds : List Nat
  ubds : List Nat
  infos : List Nat

inductive Out where
  | ok (s : State)
  | fails
  | panics

/-- What distinguishes the code from a repaired one: whether the second loop over validators goes past the test
`err == nil` (export.go 135), and how many bytes are cut off the keys of validators (export.go 217). -/
structure Code where
  passes : Bool
  cut : Nat

/-- The code as it is (export.go 135-137, 217). -/
def code : Code := { passes := false, cut := 1 }

/-- The SDK's own version of this function: tests `err != nil`, cuts the prefix and the length of the address. -/
def repaired : Code := { passes := true, cut := 2 }

/-- GetValidator. -/
def find (a : List Nat) : List Val → Option Val
  | [] => none
  | v :: vs => if v.addr = a then some v else find a vs

/-- SetValidator and the setters of the distribution module. -/
def upd (a : List Nat) (f : Val → Val) : List Val → List Val
  | [] => []
  | v :: vs => if v.addr = a then f v :: vs else v :: upd a f vs

/-- The whole coins of a commission. -/
def whole (v : Val) : Nat := min (v.commission / one * one) v.outstanding

def sum (f : Val → Nat) : List Val → Nat
  | [] => 0
  | v :: vs => f v + sum f vs

/-- All commissions are withdrawn (export.go 95-99): whole coins, the rest stays. -/
def commissions (s : State) : State :=
  { s with
    vals := s.vals.map fun v => { v with outstanding := v.outstanding - whole v, commission := v.commission - whole v }
    paid := s.paid + sum whole s.vals }

/-- A delegator's rewards are withdrawn (export.go 117): whole coins are paid, the rest goes to the community pool. -/
def withdraw (s : State) (d : Del) : State :=
  match find d.val s.vals with
  | none => s
  | some v =>
    let r := min d.reward v.outstanding
    { s with
      vals := upd d.val (fun v => { v with outstanding := v.outstanding - r, period := v.period + 1 }) s.vals
      pool := s.pool + r % one
      paid := s.paid + r / one * one }

/-- Historical rewards are deleted (export.go 124); starts are recorded from here on. -/
def clear (s : State) : State := { s with refs := fun _ _ => 0, starts := [] }

/-- Validators are reinitialised (export.go 131-160): what is outstanding goes to the community pool, and the hook for
new validators gives them period 1 and a historical record for period 0. The operator addresses are well-formed, so
that with the test as it is the function returns at once for each of them. -/
def reinit (c : Code) (s : State) : State :=
  if c.passes then
    { s with
      vals := s.vals.map fun v => { v with outstanding := 0, commission := 0, period := 1 }
      pool := s.pool + sum Val.outstanding s.vals
      refs := fun a p => if p = 0 ∧ (find a s.vals).isSome then 1 else s.refs a p }
  else s

/-- A delegation is reinitialised (export.go 176-177): the period is ended, which takes a reference off the last
historical record (a panic if it has none) and writes the next with one reference; the delegation starts there and
adds a reference. Errors of the hooks are ignored. -/
def begin (s : State) (d : Del) : Option State :=
  match find d.val s.vals with
  | none => some s
  | some v =>
    if s.refs d.val (v.period - 1) = 0 then none
    else
      some { s with
        vals := upd d.val (fun v => { v with period := v.period + 1 }) s.vals
        refs := fun a p =>
          if a = d.val ∧ p = v.period then 2
          else if a = d.val ∧ p = v.period - 1 then s.refs a p - 1
          else s.refs a p
        starts := s.starts ++ [(d.who, d.val, v.period)] }

def beginAll : List Del → State → Option State
  | [], s => some s
  | d :: ds, s =>
    match begin s d with
    | none => none
    | some s' => beginAll ds s'

/-- The key of a validator in the store: prefix, length of the address, address. -/
def key (v : Val) : List Nat := 33 :: v.addr.length :: v.addr

/-- What the last loop does to a validator (export.go 223-226). -/
def reset (allow : List (List Nat)) (v : Val) : Val :=
  { v with unbonding := 0, jailed := v.jailed || (!allow.isEmpty && !allow.contains v.addr) }

/-- The loop over the keys of validators (export.go 216-230). -/
def resetAll (c : Code) (allow : List (List Nat)) : List (List Nat) → List Val → Option (List Val)
  | [], vs => some vs
  | k :: ks, vs =>
    match find (k.drop c.cut) vs with
    | none => none
    | some _ => resetAll c allow ks (upd (k.drop c.cut) (reset allow) vs)

/-- ApplyAndReturnValidatorSetUpdates (export.go 234) panics if a validator in the power index is jailed. The index
holds the validators that were not jailed before; the last loop does not change it. All are within the maximal number
of validators. -/
def inIndexJailed (before after : List Val) : Bool :=
  before.any fun v => !v.jailed && (match find v.addr after with
    | some w => w.jailed
    | none => false)

/-- prepForZeroHeightGenesis (export.go 71-250); `readable` says which entries of the list are addresses. -/
def prepare (c : Code) (readable : List Nat → Bool) (allow : List (List Nat)) (s : State) : Out :=
  if allow.all readable then
    let s1 := reinit c (clear (s.dels.foldl withdraw (commissions s)))
    match beginAll s.dels s1 with
    | none => .panics
    | some s2 =>
      match resetAll c allow (s2.vals.map key).reverse s2.vals with
      | none => .fails
      | some vs =>
        if inIndexJailed s2.vals vs then .panics
        else
          .ok { s2 with
            vals := vs
            reds := s2.reds.map fun _ => 0
            ubds := s2.ubds.map fun _ => 0
            infos := s2.infos.map fun _ => 0 }
  else .fails

/-- ExportAppStateAndValidators (export.go 30-65): the state written, with the height at which the new chain starts. -/
def «export» (c : Code) (readable : List Nat → Bool) (zero : Bool) (allow : List (List Nat)) (last : Nat) (s : State) :
    Out × Nat :=
  if zero then (prepare c readable allow s, 0) else (.ok s, last + 1)

end ZeroHeight
