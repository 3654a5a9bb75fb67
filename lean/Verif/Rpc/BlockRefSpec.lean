import Verif.Rpc.BlockRef
/-!
# What names of blocks stand for

Digits and their value as one learns them, and the blocks that numbers and words stand for.
-/

namespace BlockRef

/-- The sixteen digits, in order; letters small or large. -/
def lowerDigits : List Char := ['0','1','2','3','4','5','6','7','8','9','a','b','c','d','e','f']
def upperDigits : List Char := ['0','1','2','3','4','5','6','7','8','9','A','B','C','D','E','F']

/-- `c` is the digit for `d`. -/
def IsDigit (c : Char) (d : Nat) : Prop := lowerDigits[d]? = some c ∨ upperDigits[d]? = some c

/-- The text is made of digits of the given values, most significant first. -/
inductive Spells : List Char → List Nat → Prop where
  | nil : Spells [] []
  | cons {c d cs ds} : IsDigit c d → Spells cs ds → Spells (c :: cs) (d :: ds)

/-- The number that digits stand for: each counts by its place. -/
def value (base : Nat) : List Nat → Nat
  | [] => 0
  | d :: ds => d * base ^ ds.length + value base ds

/-- Digits of a number as people write it: below the base, no leading zero, but at least one digit. -/
def Proper (base : Nat) (ds : List Nat) : Prop :=
  ds ≠ [] ∧ (∀ d ∈ ds, d < base) ∧ (ds.head? = some 0 → ds = [0])

/-- One of the five words. -/
def Word (s : List Char) : Prop := s = earliest ∨ s = latest ∨ s = finalized ∨ s = safe ∨ s = pending

/-- A small or large letter. -/
def Letter (c : Char) : Prop := (97 ≤ c.toNat ∧ c.toNat ≤ 122) ∨ (65 ≤ c.toNat ∧ c.toNat ≤ 90)

/-- The node has the block of height `h`. -/
def Has (c : Chain) (h : Nat) : Prop := c.base ≤ h ∧ h ≤ c.top

end BlockRef
