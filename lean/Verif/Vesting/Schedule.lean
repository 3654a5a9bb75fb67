/-!
# Vesting schedules (`x/vesting/types/schedule.go`)

Valid `sdk.Coins` are sorted lists of distinct denominations with positive amounts; here they are functions from the finitely
many denominations that occur to amounts.  Times and lengths are unbounded integers; the overflow of `int64` is not modelled.
-/
namespace Vesting

/-- Amounts of `n` denominations. -/
abbrev Coins (n : Nat) := Fin n → Nat

/-- No coins. -/
def Coins.zero {n : Nat} : Coins n := fun _ => 0

/-- `Coins.Add`. -/
def Coins.add {n : Nat} (a b : Coins n) : Coins n := fun i => a i + b i

/-- `Coins.Min`. -/
def Coins.min {n : Nat} (a b : Coins n) : Coins n := fun i => Nat.min (a i) (b i)

/-- The difference; `Coins.Sub` panics if an amount is negative, see `Coins.le`. -/
def Coins.sub {n : Nat} (a b : Coins n) : Coins n := fun i => a i - b i

/-- `IsAllLTE`. -/
def Coins.le {n : Nat} (a b : Coins n) : Bool := decide (∀ i, a i ≤ b i)

/-- `IsZero`. -/
def Coins.isZero {n : Nat} (a : Coins n) : Bool := decide (∀ i, a i = 0)

/-- `sdkvesting.Period`. -/
structure Period (n : Nat) where
  len : Int
  amount : Coins n

/-- `Periods.TotalLength`. -/
def totalLength {n : Nat} : List (Period n) → Int
  | [] => 0
  | p :: ps => p.len + totalLength ps

/-- `Periods.TotalAmount`. -/
def totalAmount {n : Nat} : List (Period n) → Coins n
  | [] => Coins.zero
  | p :: ps => p.amount.add (totalAmount ps)

/-- The loop of `ReadSchedule` (schedule.go 31-43). -/
def readLoop {n : Nat} (t : Int) : Int → Coins n → List (Period n) → Coins n
  | _, acc, [] => acc
  | elapsed, acc, p :: ps =>
    if t < elapsed + p.len then acc else readLoop t (elapsed + p.len) (acc.add p.amount) ps

/-- `ReadSchedule` (schedule.go 15-44). -/
def readSchedule {n : Nat} (start stop : Int) (ps : List (Period n)) (total : Coins n) (t : Int) : Coins n :=
  if t ≤ start then Coins.zero
  else if stop ≤ t then total
  else readLoop t start Coins.zero ps

/-- The loop of `ReadPastPeriodCount` (schedule.go 65-78). -/
def countLoop {n : Nat} (t : Int) : Int → List (Period n) → Nat
  | _, [] => 0
  | elapsed, p :: ps => if t < elapsed + p.len then 0 else countLoop t (elapsed + p.len) ps + 1

/-- `ReadPastPeriodCount` (schedule.go 47-79). -/
def pastCount {n : Nat} (start stop : Int) (ps : List (Period n)) (t : Int) : Nat :=
  if t ≤ start then 0
  else if stop ≤ t then ps.length
  else countLoop t start ps

/-- `emit` of `DisjunctPeriods` (schedule.go 120-127) in front of the rest of the result: a period that ends at `time`,
where `last` is the end of the period before. -/
def emit {n : Nat} (last time : Int) (amount : Coins n) (r : Int × List (Period n)) : Int × List (Period n) :=
  (r.1, ⟨time - last, amount⟩ :: r.2)

/-- The loops of `DisjunctPeriods` (schedule.go 168-196); the first argument bounds the number of rounds.  The result is the
end time and the periods. -/
def disjunctLoop {n : Nat} : Nat → Int → Int → Int → List (Period n) → List (Period n) → Int × List (Period n)
  | 0, _, _, last, _, _ => (last, [])
  | _ + 1, _, _, last, [], [] => (last, [])
  | f + 1, ta, tb, last, a :: as, [] => emit last (ta + a.len) a.amount (disjunctLoop f (ta + a.len) tb (ta + a.len) as [])
  | f + 1, ta, tb, last, [], b :: bs => emit last (tb + b.len) b.amount (disjunctLoop f ta (tb + b.len) (tb + b.len) [] bs)
  | f + 1, ta, tb, last, a :: as, b :: bs =>
    if ta + a.len < tb + b.len then
      emit last (ta + a.len) a.amount (disjunctLoop f (ta + a.len) tb (ta + a.len) as (b :: bs))
    else if tb + b.len < ta + a.len then
      emit last (tb + b.len) b.amount (disjunctLoop f ta (tb + b.len) (tb + b.len) (a :: as) bs)
    else
      emit last (ta + a.len) (a.amount.add b.amount)
        (disjunctLoop f (ta + a.len) (ta + a.len) (ta + a.len) as bs)

/-- What `DisjunctPeriods` and `ConjunctPeriods` return. -/
structure Merged (n : Nat) where
  start : Int
  stop : Int
  periods : List (Period n)

/-- `Min64` (utils.go). -/
def min64 (a b : Int) : Int := if a < b then a else b

/-- `Max64` (utils.go). -/
def max64 (a b : Int) : Int := if b < a then a else b

/-- `DisjunctPeriods` (schedule.go 88-199). -/
def disjunct {n : Nat} (sa sb : Int) (as bs : List (Period n)) : Merged n :=
  let r := disjunctLoop (as.length + bs.length) sa sb (min64 sa sb) as bs
  ⟨min64 sa sb, r.1, r.2⟩

/-- `consumeA`, `consumeB` and `consumeBoth` of `ConjunctPeriods` after the totals have been updated (schedule.go 261-267,
282-288, 304-310): the new end and result amount, and the period emitted. -/
def conjunctEmit {n : Nat} (last time : Int) (result totalA totalB : Coins n) : Int × Coins n × List (Period n) :=
  if result.le (totalA.min totalB) then
    if ((totalA.min totalB).sub result).isZero then (last, result, [])
    else (time, result.add ((totalA.min totalB).sub result), [⟨time - last, (totalA.min totalB).sub result⟩])
  else (last, result, [])

/-- The loops of `ConjunctPeriods` (schedule.go 321-350). -/
def conjunctLoop {n : Nat} : Nat → Int → Int → Int → Coins n → Coins n → Coins n → List (Period n) → List (Period n) →
    Int × List (Period n)
  | 0, _, _, last, _, _, _, _, _ => (last, [])
  | _ + 1, _, _, last, _, _, _, [], [] => (last, [])
  | f + 1, ta, tb, last, res, totA, totB, a :: as, [] =>
    let e := conjunctEmit last (ta + a.len) res (totA.add a.amount) totB
    let r := conjunctLoop f (ta + a.len) tb e.1 e.2.1 (totA.add a.amount) totB as []
    (r.1, e.2.2 ++ r.2)
  | f + 1, ta, tb, last, res, totA, totB, [], b :: bs =>
    let e := conjunctEmit last (tb + b.len) res totA (totB.add b.amount)
    let r := conjunctLoop f ta (tb + b.len) e.1 e.2.1 totA (totB.add b.amount) [] bs
    (r.1, e.2.2 ++ r.2)
  | f + 1, ta, tb, last, res, totA, totB, a :: as, b :: bs =>
    if ta + a.len < tb + b.len then
      let e := conjunctEmit last (ta + a.len) res (totA.add a.amount) totB
      let r := conjunctLoop f (ta + a.len) tb e.1 e.2.1 (totA.add a.amount) totB as (b :: bs)
      (r.1, e.2.2 ++ r.2)
    else if tb + b.len < ta + a.len then
      let e := conjunctEmit last (tb + b.len) res totA (totB.add b.amount)
      let r := conjunctLoop f ta (tb + b.len) e.1 e.2.1 totA (totB.add b.amount) (a :: as) bs
      (r.1, e.2.2 ++ r.2)
    else
      let e := conjunctEmit last (ta + a.len) res (totA.add a.amount) (totB.add b.amount)
      let r := conjunctLoop f (ta + a.len) (ta + a.len) e.1 e.2.1 (totA.add a.amount) (totB.add b.amount) as bs
      (r.1, e.2.2 ++ r.2)

/-- `ConjunctPeriods` (schedule.go 205-353). -/
def conjunct {n : Nat} (sa sb : Int) (as bs : List (Period n)) : Merged n :=
  let r := conjunctLoop (as.length + bs.length) sa sb (min64 sa sb) Coins.zero Coins.zero Coins.zero as bs
  ⟨min64 sa sb, r.1, r.2⟩

/-- schedule.go 366-372: the first period of a list is extended. -/
def extend {n : Nat} (by_ : Int) : List (Period n) → List (Period n)
  | [] => []
  | p :: ps => ⟨p.len + by_, p.amount⟩ :: ps

/-- `AlignSchedules` (schedule.go 358-381); it changes both lists of periods. -/
def align {n : Nat} (sa sb : Int) (as bs : List (Period n)) : Int × Int × List (Period n) × List (Period n) :=
  let start := min64 sa sb
  let as' := extend (sa - start) as
  let bs' := extend (sb - start) bs
  (start, max64 (start + totalLength as') (start + totalLength bs'), as', bs')

/-! ## The account (`clawback_vesting_account.go`) -/

/-- `ClawbackVestingAccount`, the schedules and the tracked delegations. -/
structure Account (n : Nat) where
  start : Int
  stop : Int
  original : Coins n
  lockup : List (Period n)
  vesting : List (Period n)
  delegatedFree : Coins n

variable {n : Nat}

/-- `GetUnlockedCoins` (175-177). -/
def Account.unlocked (a : Account n) (t : Int) : Coins n := readSchedule a.start a.stop a.lockup a.original t

/-- `GetVestedCoins` (187-189). -/
def Account.vested (a : Account n) (t : Int) : Coins n := readSchedule a.start a.stop a.vesting a.original t

/-- `GetUnlockedVestedCoins` (59-65). -/
def Account.unlockedVested (a : Account n) (t : Int) : Coins n := (a.unlocked t).min (a.vested t)

/-- `GetLockedUpVestedCoins` (53-55). -/
def Account.lockedVested (a : Account n) (t : Int) : Coins n := (a.vested t).sub (a.unlockedVested t)

/-- `GetVestingCoins` (69-71). -/
def Account.unvested (a : Account n) (t : Int) : Coins n := a.original.sub (a.vested t)

/-- `LockedCoins` (81-99). -/
def Account.locked (a : Account n) (t : Int) : Coins n :=
  let free := (a.unlockedVested t).add (a.delegatedFree.min (a.lockedVested t))
  if free.le a.original then a.original.sub free else Coins.zero

/-- `CoinEq` (utils.go). -/
def Coins.eq (a b : Coins n) : Bool := a.le b && b.le a

/-- `Validate` (131-170) without the checks of the embedded base account. -/
def Account.validate (a : Account n) : Bool :=
  decide (a.start < a.stop) && decide (a.start + totalLength a.lockup ≤ a.stop) &&
    Coins.eq (totalAmount a.lockup) a.original && decide (a.start + totalLength a.vesting ≤ a.stop) &&
    Coins.eq (totalAmount a.vesting) a.original

/-- `ComputeClawback` (199-230): the new account and the coins to claw back. -/
def Account.computeClawback (a : Account n) (t : Int) : Account n × Coins n :=
  let vested := a.vested t
  let newVesting := a.vesting.take (pastCount a.start a.stop a.vesting t)
  let c := conjunct a.start a.start a.lockup [⟨0, vested⟩]
  ({ a with
      original := vested
      stop := max64 (a.start + totalLength newVesting) c.stop
      lockup := c.periods
      vesting := newVesting },
   a.unvested t)

/-- `AddGrant` (240-276). -/
def Account.addGrant (a : Account n) (grantStart : Int) (lockup vesting : List (Period n)) (coins : Coins n) :
    Option (Account n) :=
  let start := if a.lockup.isEmpty && a.vesting.isEmpty then grantStart else a.start
  let l := disjunct start grantStart a.lockup lockup
  let v := disjunct start grantStart a.vesting vesting
  if l.start ≠ v.start then none
  else some { a with
    start := l.start
    stop := max64 l.stop v.stop
    lockup := l.periods
    vesting := v.periods
    original := a.original.add coins }

/-- An account on the chain: a plain account, or a vesting account. -/
inductive Acc (n : Nat) where
  | base
  | vesting (a : Account n)

/-- What the bank keeps locked for an account. -/
def Acc.locked : Acc n → Int → Coins n
  | .base, _ => Coins.zero
  | .vesting a, t => a.locked t

/-- `transferClawback` (keeper/msg_server.go 384-421): the account becomes a plain one, the new schedule is dropped; the coins
are sent if the balance suffices. -/
def transferClawback (a : Account n) (balance : Coins n) (t : Int) : Option (Acc n × Coins n) :=
  if (a.computeClawback t).2.le balance then some (.base, balance.sub (a.computeClawback t).2) else none

end Vesting
