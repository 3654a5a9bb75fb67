import Verif.Chronos.Archive
/-!
# What should be remembered

Written from the history alone, without stores or keys.
-/
namespace CronArchive
open Hyperion (Str dec)

/-- The cancellations, and the executions that did not fail. -/
def recordings : List Op → List (Nat × Nat × Str × Nat)
  | [] => []
  | .cancelled h c x b :: ops => (h, c, x, b) :: recordings ops
  | .executed h c x b (some _) :: ops => (h, c, x, b) :: recordings ops
  | _ :: ops => recordings ops

/-- The transactions, numbered from 1. -/
def log (ops : List Op) : List Tx :=
  ((recordings ops).zipIdx 1).map (fun e => ⟨e.2, e.1.1, e.1.2.2.1, e.1.2.1, e.1.2.2.2⟩)

/-- Both blocks lie after the switch to the archive store, or neither does. -/
def SameSide (h b : Nat) : Prop := 34800 < h ↔ 34800 < b

instance (h b : Nat) : Decidable (SameSide h b) := inferInstanceAs (Decidable (_ ↔ _))

/-- Hashes of transactions are texts starting with `0x`. -/
def HexHashes (ops : List Op) : Prop := ∀ t ∈ log ops, ∃ r, t.hash = 48 :: 120 :: r

/-- No two transactions have the same hash. -/
def OwnHashes (ops : List Op) : Prop := ((log ops).map (·.hash)).Nodup

/-- The calls that ended on the same side of the switch as block `h`, with their identifier `id`, latest last. -/
def ended (ops : List Op) (h id : Nat) : List Cron :=
  ops.filterMap (fun
    | .removed b c _ => if SameSide h b ∧ c.id = id then some c else none
    | _ => none)

/-- How many calls ended. -/
def endings (ops : List Op) (h : Nat) : Nat :=
  ops.countP (fun
    | .removed b _ _ => decide (SameSide h b)
    | _ => false)

/-- How many calls were paid back when they ended. -/
def refunds (ops : List Op) (h : Nat) : Nat :=
  ops.countP (fun
    | .removed b _ r => decide (SameSide h b) && r
    | _ => false)

/-- How many executions there were. -/
def executions (ops : List Op) (h : Nat) : Nat :=
  ops.countP (fun
    | .executed b _ _ _ (some _) => decide (SameSide h b)
    | _ => false)

/-- The last count of active calls. -/
def lastCount (ops : List Op) : Option Nat :=
  (ops.filterMap (fun | .counted n => some n | _ => none)).getLast?

end CronArchive
