import Verif.Erc20.Weights
/-!
# Specification for weights of assets
-/
namespace Erc20.Weights

/-- Every delegation counts as its amount times the weight of its asset. -/
def Fair (s : St) : Prop := ∀ x ∈ s.delegs, ∃ a, s.assets x.denom = some a ∧ 0 < x.den ∧ x.num = a.weight * x.den

/-- What governance is promised for a small, medium and high change, in hundredths. -/
def share : Magnitude → Nat
  | .small => 5
  | .medium => 15
  | .high => 30

/-- An update of weight `w` comes out even: the share by which delegations change, in hundredths, is the one by which the weight changes. -/
def Even (w : Nat) (m : Magnitude) (up : Bool) : Prop :=
  ∀ w' pct, adjust w m up = some (w', pct) → w' * 100 = w * (if up then 100 + pct else 100 - pct)

/-- The history updates no archived asset, and only in ways that come out even; assets have weights. -/
def Careful (s : St) : List Op → Prop
  | [] => True
  | op :: ops => (match op with
      | .update d m up => ∀ a, s.assets d = some a → a.archived = false ∧ Even a.weight m up
      | .addMsg _ w => w ≠ 0
      | _ => True) ∧ Careful (step s op) ops

/-- All assets have a positive weight. -/
def Positive (s : St) : Prop := ∀ d a, s.assets d = some a → 0 < a.weight

end Erc20.Weights
