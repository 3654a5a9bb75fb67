import Verif.EVM.ForkOrder
/-!
# What a schedule of forks should be
-/

namespace ForkOrder

/-- `f` and a later `g` are in order: if `g` has a block, `f` has none after it, and `f` has one unless it may be left
out. -/
def InOrder (block : Fork → Option Int) (f g : Fork) : Prop :=
  ∀ b, block g = some b → (∀ a, block f = some a → a ≤ b) ∧ (optional f = false → block f ≠ none)

/-- The chronology of Ethereum's forks. -/
def rank : Fork → Nat
  | .homestead => 0 | .dao => 1 | .eip150 => 2 | .eip155 => 3 | .eip158 => 4 | .byzantium => 5 | .constantinople => 6
  | .petersburg => 7 | .istanbul => 8 | .muirGlacier => 9 | .berlin => 10 | .london => 11 | .arrowGlacier => 12
  | .grayGlacier => 13 | .mergeNetsplit => 14 | .shanghai => 15 | .cancun => 16

/-- Texts of nothing but space. -/
def Blank (space : Nat → Bool) (h : List Nat) : Prop := h ≠ [] ∧ ∀ c ∈ h, space c = true

end ForkOrder
