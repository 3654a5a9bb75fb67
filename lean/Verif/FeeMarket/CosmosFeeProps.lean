import Verif.FeeMarket.CosmosFee
/-!
# What a Cosmos transaction pays (C58)
-/
namespace FeeMarket

theorem ceilDec_spec (d : Nat) : d ≤ ceilDec d * 10 ^ 18 ∧ ∀ n, d ≤ n * 10 ^ 18 → ceilDec d ≤ n := by
  have h1 : one = 1000000000000000000 := rfl
  unfold ceilDec
  rw [h1]
  constructor
  · omega
  · intro n h
    omega

/-- What the sender pays covers the base fee for the whole gas limit and is never more than the fee it offered. -/
theorem paid_between_base_and_offer {base tip : Option Nat} {gas fee paid : Nat}
    (h : feeChecker base tip gas fee = some paid) :
    base.getD 0 * gas ≤ paid * 10 ^ 18 ∧ paid ≤ fee := by
  unfold feeChecker at h
  split at h
  · cases h
  · split at h
    · cases h
    · rename_i hg hc
      obtain ⟨c1, c2⟩ := ceilDec_spec (effectivePrice (base.getD 0) (fee * one / gas) (tip.getD defaultTip) * gas)
      rw [Option.some.inj h] at c1 c2
      constructor
      · refine Nat.le_trans (Nat.mul_le_mul_right _ ?_) c1
        unfold effectivePrice
        omega
      · apply c2
        refine Nat.le_trans (Nat.mul_le_mul_right _ (Nat.min_le_right _ _)) ?_
        exact Nat.div_mul_le_self _ _

example : feeChecker (some (7 * one)) (some (2 * one)) 100 1000 = some 900 := by decide +kernel

/-- It also never pays more than the base fee and the tip, rounded up to a whole coin. -/
theorem paid_at_most_base_and_tip {base : Option Nat} {tip gas fee paid : Nat}
    (h : feeChecker base (some tip) gas fee = some paid) : ∀ n, (base.getD 0 + tip) * gas ≤ n * 10 ^ 18 → paid ≤ n := by
  unfold feeChecker at h
  split at h
  · cases h
  · split at h
    · cases h
    · obtain ⟨_, c2⟩ := ceilDec_spec (effectivePrice (base.getD 0) (fee * one / gas) tip * gas)
      intro n hn
      rw [← Option.some.inj h]
      apply c2
      refine Nat.le_trans (Nat.mul_le_mul_right _ ?_) hn
      rw [Nat.add_comm]
      exact Nat.min_le_left _ _

/-- It is accepted exactly if it offers the base fee for its gas. -/
theorem accepted_iff {base tip : Option Nat} {gas fee : Nat} :
    (feeChecker base tip gas fee).isSome = true ↔ gas ≠ 0 ∧ base.getD 0 * gas ≤ fee * 10 ^ 18 := by
  unfold feeChecker
  split
  · rename_i h
    exact ⟨fun h => (by cases h), fun hh => absurd h hh.1⟩
  · rename_i hg
    have key : base.getD 0 ≤ fee * one / gas ↔ base.getD 0 * gas ≤ fee * 10 ^ 18 := by
      rw [Nat.le_div_iff_mul_le (by omega)]
      exact Iff.rfl
    split
    · refine ⟨fun h => (by cases h), fun hh => ?_⟩
      have := key.2 hh.2
      omega
    · exact ⟨fun _ => ⟨hg, key.1 (by omega)⟩, fun _ => rfl⟩

/-- The full property: what a Cosmos transaction pays is not below the minimum gas price of the chain. -/
def PaysMinimum (p : Params) : Prop :=
  ∀ tip gas fee paid, cosmosFee p tip gas fee = some paid → p.minPrice * gas ≤ paid * 10 ^ 18

/-- It holds if the base fee is not below the minimum gas price (see `never_below_minimum`). -/
theorem pays_minimum_partial {p : Params} (hb : p.minPrice ≤ (getBaseFee p).getD 0) : PaysMinimum p := by
  intro tip gas fee paid h
  unfold cosmosFee at h
  split at h
  · exact Nat.le_trans (Nat.mul_le_mul_right _ hb) (paid_between_base_and_offer h).1
  · cases h

/-- The offered fee always covers the minimum gas price: nothing is accepted below it. -/
theorem offer_covers_minimum {p : Params} {tip : Option Nat} {gas paid : Nat} {fee : Option Nat}
    (h : cosmosFee p tip gas fee = some paid) : p.minPrice * gas ≤ fee.getD 0 * 10 ^ 18 := by
  unfold cosmosFee at h
  split at h
  · rename_i hm
    unfold minPriceOk at hm
    simp only [Bool.or_eq_true, beq_iff_eq] at hm
    rcases hm with hm | hm
    · rw [hm, Nat.zero_mul]; exact Nat.zero_le _
    · cases fee with
      | none => cases hm
      | some f =>
        exact Nat.le_trans (ceilDec_spec (p.minPrice * gas)).1 (Nat.mul_le_mul_right _ (of_decide_eq_true hm))
  · cases h

/-- The base fee is at least 5, the minimum gas price is 5. -/
def params5 : Params := ⟨false, 8, 2, some (7 * one), 0, 5 * one, one / 2⟩

example : params5.minPrice ≤ (getBaseFee params5).getD 0 := by decide +kernel

example : cosmosFee params5 none 100 (some 800) = some 800 := by decide +kernel

/-- It does not hold in general: only the offered fee is compared with the minimum gas price; with a base fee below the
minimum (or none), a transaction with a tip of 0 pays the base fee. -/
theorem may_pay_less_than_minimum : ¬ PaysMinimum { params5 with baseFee := some (1 * one) } := by
  intro h
  have := h (some 0) 100 (some 500) 100 (by decide +kernel)
  revert this
  decide +kernel

/-- With no base fee, such a transaction is free. -/
theorem may_pay_nothing : cosmosFee { params5 with noBaseFee := true } (some 0) 100 (some 500) = some 0 := by
  decide +kernel

end FeeMarket
