import Verif.Vesting.Grants
import Verif.Vesting.ClawbackProps
/-!
# Vesting accounts on the chain: specification

`released t i start periods` (`ScheduleProps.lean`) adds up the amounts of coin `i` of the periods that have ended by `t`; `Good` (`ClawbackProps.lean`) says that both schedules
of an account go forward, end with the account and release its original amount.
-/
namespace Grant
open Vesting

variable {n : Nat}

/-- How much of coin `i` is vested at `t`. -/
def vestedBy (a : Account n) (t : Int) (i : Fin n) : Nat := if a.start < t then released t i a.start a.vesting else 0

/-- How much of coin `i` is unlocked at `t`. -/
def unlockedBy (a : Account n) (t : Int) (i : Fin n) : Nat := if a.start < t then released t i a.start a.lockup else 0

/-- Every vesting account is in order, and has at least the coins that are not vested yet. -/
def Held (s : State n) : Prop :=
  ∀ x f a, s.accs x = .grant f a → Good a ∧ ∀ i, a.original i - vestedBy a s.now i ≤ s.bal x i

/-- The operation does not delegate other coins than the staking coin. -/
def OwnCoin (e : Env n) : Op n → Prop
  | .delegate _ j _ => j = e.bond
  | _ => True

/-- Who signs a message; `none` for what is not a message. -/
def Op.signer : Op n → Option Nat
  | .create p _ _ => some p
  | .fund p _ _ _ _ => some p
  | .clawback p _ _ => some p
  | .updateFunder p _ _ => some p
  | .convert p => some p
  | .send p _ _ => some p
  | .delegate p _ _ => some p
  | .undelegate p _ _ _ => some p
  | _ => none

/-- The same schedules and amounts. -/
def Same (a b : Account n) : Prop :=
  a.start = b.start ∧ a.stop = b.stop ∧ a.original = b.original ∧ a.lockup = b.lockup ∧ a.vesting = b.vesting

/-- The deposit or the end of a proposal about the account. -/
def Op.about (x : Nat) : Op n → Prop
  | .deposited ts _ => x ∈ ts
  | .ended ts => x ∈ ts
  | _ => False

end Grant
