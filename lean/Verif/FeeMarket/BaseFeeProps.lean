import Verif.FeeMarket.BaseFee
/-!
# Properties of the base fee (C32)
-/
namespace FeeMarket

/-! ## Specification -/

/-- The part of the base fee by which EIP-1559 moves it: `fee * difference / target / denominator`, rounded down once. -/
def share (fee difference target denom : Nat) : Nat := fee * difference / (target * denom)

/-- The base fee applies at the height: it is enabled and this is not the first block with it. -/
def Active (p : Params) (height : Nat) : Prop := p.noBaseFee = false ∧ p.enableHeight < height

/-- The gas target of a block: its limit divided by the elasticity. -/
def target (limit : Option Nat) (elasticity : Nat) : Nat :=
  (match limit with
  | some l => l
  | none => 2 ^ 64 - 1) / elasticity

theorem gasLimit_eq (limit : Option Nat) (e : Nat) : gasLimit limit / e = target limit e := by
  cases limit <;> rfl

theorem nextFee_move {p : Params} {height : Nat} {limit : Option Nat} {wanted b : Nat} (ha : Active p height)
    (hb : p.baseFee = some b) (he : p.elasticity ≠ 0) :
    nextFee p height limit wanted = move b (target limit p.elasticity) p.denom wanted p.minPrice := by
  have h1 : ¬ height < p.enableHeight := by have := ha.2; omega
  have h2 : height ≠ p.enableHeight := by have := ha.2; omega
  unfold nextFee
  rw [ha.1, hb, decide_eq_false h1, if_neg (by simp), if_neg h2, gasLimit_eq]
  dsimp only
  rw [if_neg he]

/-! ## C32 -/

/-- At the target the base fee does not change. -/
theorem same_at_target {p : Params} {height : Nat} {limit : Option Nat} {b : Nat} (ha : Active p height)
    (hb : p.baseFee = some b) (he : p.elasticity ≠ 0) :
    nextFee p height limit (target limit p.elasticity) = .fee b := by
  rw [nextFee_move ha hb he]
  unfold move
  rw [if_pos rfl]

/-- Above the target it rises by `fee * excess / target / denominator`, and at least by 1. -/
theorem rises_above_target {p : Params} {height : Nat} {limit : Option Nat} {b wanted : Nat} (ha : Active p height)
    (hb : p.baseFee = some b) (he : p.elasticity ≠ 0) (hd : p.denom ≠ 0) (ht : 0 < target limit p.elasticity)
    (hw : target limit p.elasticity < wanted) :
    nextFee p height limit wanted =
      .fee (b + max (share b (wanted - target limit p.elasticity) (target limit p.elasticity) p.denom) (10 ^ 18)) := by
  rw [nextFee_move ha hb he]
  unfold move
  rw [if_neg (by omega), if_neg (by omega), if_pos hw]
  unfold up share
  rw [if_neg hd, Nat.div_div_eq_div_mul]
  rfl

/-- Below the target it falls by `fee * lack / target / denominator`, but not below the minimum gas price. -/
theorem falls_below_target {p : Params} {height : Nat} {limit : Option Nat} {b wanted : Nat} (ha : Active p height)
    (hb : p.baseFee = some b) (he : p.elasticity ≠ 0) (hd : p.denom ≠ 0)
    (hw : wanted < target limit p.elasticity) :
    nextFee p height limit wanted =
      .fee (max (b - share b (target limit p.elasticity - wanted) (target limit p.elasticity) p.denom) p.minPrice) := by
  rw [nextFee_move ha hb he]
  unfold move
  rw [if_neg (by omega), if_neg (by omega), if_neg (by omega)]
  unfold down share
  rw [if_neg hd, Nat.div_div_eq_div_mul]

/-- Parameters of the samples: fee 1000, denominator 100, elasticity 2, minimum 10. -/
def sample : Params := ⟨false, 100, 2, some (1000 * one), 0, 10 * one, one / 2⟩

example : Active sample 5 ∧ target (some 40) sample.elasticity = 20 ∧ nextFee sample 5 (some 40) 20 = .fee (1000 * one) ∧
    nextFee sample 5 (some 40) 30 = .fee (1005 * one) ∧ nextFee sample 5 (some 40) 10 = .fee (995 * one) ∧
    nextFee { sample with baseFee := some (10 * one) } 5 (some 40) 30 = .fee (11 * one) ∧
    nextFee { sample with baseFee := some (10 * one) } 5 (some 40) 10 = .fee (10 * one) := by
  refine ⟨⟨rfl, by decide⟩, ?_⟩
  decide +kernel

/-- More gas never makes the next base fee lower, if the present one is not below the minimum gas price. -/
theorem monotone_in_gas {p : Params} {height : Nat} {limit : Option Nat} {b w w' f f' : Nat} (ha : Active p height)
    (hb : p.baseFee = some b) (he : p.elasticity ≠ 0) (hd : p.denom ≠ 0) (ht : 0 < target limit p.elasticity)
    (hm : p.minPrice ≤ b) (hw : w ≤ w') (hf : nextFee p height limit w = .fee f) (hf' : nextFee p height limit w' = .fee f') :
    f ≤ f' := by
  have share_le : ∀ {d d' t : Nat}, d ≤ d' → share b d t p.denom ≤ share b d' t p.denom := fun h =>
    Nat.div_le_div_right (Nat.mul_le_mul_left _ h)
  have low : ∀ {x y : Nat}, nextFee p height limit x = .fee y → x ≤ target limit p.elasticity → y ≤ b := by
    intro x y hx hle
    by_cases e : x = target limit p.elasticity
    · rw [e, same_at_target ha hb he] at hx
      cases hx
      exact Nat.le_refl _
    · rw [falls_below_target ha hb he hd (by omega)] at hx
      cases hx
      have := Nat.sub_le b (share b (target limit p.elasticity - x) (target limit p.elasticity) p.denom)
      omega
  have high : ∀ {x y : Nat}, nextFee p height limit x = .fee y → target limit p.elasticity ≤ x → b ≤ y := by
    intro x y hx hle
    by_cases e : x = target limit p.elasticity
    · rw [e, same_at_target ha hb he] at hx
      cases hx
      exact Nat.le_refl _
    · rw [rises_above_target ha hb he hd ht (by omega)] at hx
      cases hx
      omega
  by_cases h1 : w ≤ target limit p.elasticity
  · by_cases h2 : target limit p.elasticity ≤ w'
    · exact Nat.le_trans (low hf h1) (high hf' h2)
    · rw [falls_below_target ha hb he hd (by omega)] at hf hf'
      cases hf
      cases hf'
      have := share_le (t := target limit p.elasticity)
        (show target limit p.elasticity - w' ≤ target limit p.elasticity - w by omega)
      omega
  · rw [rises_above_target ha hb he hd ht (by omega)] at hf hf'
    cases hf
    cases hf'
    have := share_le (t := target limit p.elasticity)
      (show w - target limit p.elasticity ≤ w' - target limit p.elasticity by omega)
    omega

example : sample.minPrice ≤ 1000 * one ∧ nextFee sample 5 (some 40) 10 = .fee (995 * one) ∧
    nextFee sample 5 (some 40) 30 = .fee (1005 * one) := by decide +kernel

/-- Without that condition it is false: below the target the fee jumps up to the minimum gas price, at the target it stays
below it. -/
theorem not_monotone_below_minimum :
    nextFee { sample with baseFee := some one } 5 (some 40) 19 = .fee (10 * one) ∧
    nextFee { sample with baseFee := some one } 5 (some 40) 20 = .fee one := by decide +kernel

/-- With a limit that the elasticity divides and no more gas than the limit, the fee grows in one block at most by
`fee * (elasticity - 1) / denominator`, or by 1. -/
theorem growth_bounded {p : Params} {height l b w f : Nat} (ha : Active p height) (hb : p.baseFee = some b)
    (he : p.elasticity ≠ 0) (hd : p.denom ≠ 0) (hl : p.elasticity ∣ l) (h0 : 0 < l) (hw : w ≤ l)
    (hm : p.minPrice ≤ b) (hf : nextFee p height (some l) w = .fee f) :
    f ≤ b + max (b * (p.elasticity - 1) / p.denom) (10 ^ 18) := by
  obtain ⟨t, rfl⟩ := hl
  have ht : target (some (p.elasticity * t)) p.elasticity = t := Nat.mul_div_cancel_left t (by omega)
  have ht0 : 0 < t := Nat.pos_of_ne_zero (by rintro rfl; simp at h0)
  by_cases h1 : t < w
  · rw [rises_above_target ha hb he hd (by rw [ht]; exact ht0) (by rw [ht]; exact h1), ht] at hf
    cases hf
    have : share b (w - t) t p.denom ≤ b * (p.elasticity - 1) / p.denom := by
      have h2 : w - t ≤ t * (p.elasticity - 1) := by
        rw [Nat.mul_sub, Nat.mul_one, Nat.mul_comm t]
        omega
      unfold share
      rw [← Nat.div_div_eq_div_mul]
      apply Nat.div_le_div_right
      apply Nat.div_le_of_le_mul
      calc b * (w - t) ≤ b * (t * (p.elasticity - 1)) := Nat.mul_le_mul_left _ h2
        _ = t * (b * (p.elasticity - 1)) := by rw [Nat.mul_left_comm]
    omega
  · by_cases h2 : w = t
    · rw [h2, ← ht, show p.elasticity * target (some (p.elasticity * t)) p.elasticity = p.elasticity * t by rw [ht],
        same_at_target ha hb he] at hf
      cases hf
      omega
    · rw [falls_below_target ha hb he hd (by rw [ht]; omega), ht] at hf
      cases hf
      have := Nat.sub_le b (share b (t - w) t p.denom)
      omega

example : nextFee sample 5 (some 40) 40 = .fee (1010 * one) ∧ sample.elasticity ∣ 40 := by
  refine ⟨by decide +kernel, ⟨20, rfl⟩⟩

/-! ## Whole chains -/

theorem nextFee_params {p : Params} {height : Nat} {limit : Option Nat} {w f b : Nat} (hb : p.baseFee = some b)
    (hf : nextFee p height limit w = .fee f) (he : target limit p.elasticity ≠ 0) (hm : p.minPrice ≤ b) :
    p.minPrice ≤ f := by
  have hel : p.elasticity ≠ 0 := by intro e; apply he; unfold target; rw [e]; exact Nat.div_zero _
  unfold nextFee at hf
  split at hf
  · cases hf
  · split at hf
    · rw [hb] at hf; cases hf; exact hm
    · rw [hb] at hf
      dsimp only at hf
      rw [gasLimit_eq] at hf
      unfold move at hf
      rw [if_neg he] at hf
      split at hf
      · cases hf; exact hm
      · split at hf
        · unfold up at hf
          split at hf
          · cases hf
          · cases hf; omega
        · unfold down at hf
          split at hf
          · cases hf
          · cases hf; omega

theorem block_params {s t : State} {b : Block} (h : block s b = some t) :
    t.params.minPrice = s.params.minPrice ∧ t.params.elasticity = s.params.elasticity ∧ t.height = s.height + 1 ∧
    (t.params.baseFee = s.params.baseFee ∨
      ∃ f, nextFee s.params (s.height + 1) b.limit s.wanted = .fee f ∧ t.params.baseFee = some f) := by
  unfold block beginBlock endBlock at h
  cases hc : nextFee s.params (s.height + 1) b.limit s.wanted with
  | panic => rw [hc] at h; cases h
  | nil =>
    rw [hc] at h
    dsimp only at h
    split at h
    · cases h
    · split at h
      · cases h
      · cases h; exact ⟨rfl, rfl, rfl, .inl rfl⟩
  | fee f =>
    rw [hc] at h
    dsimp only at h
    split at h
    · cases h
    · split at h
      · cases h
      · cases h; exact ⟨rfl, rfl, rfl, .inr ⟨f, rfl, rfl⟩⟩

/-- On every chain of blocks with a positive gas target the base fee stays at or above the minimum gas price once it is
there. -/
theorem never_below_minimum {s t : State} {bs : List Block} {b : Nat} (hb : s.params.baseFee = some b)
    (hm : s.params.minPrice ≤ b) (ht : ∀ x ∈ bs, target x.limit s.params.elasticity ≠ 0) (h : chain s bs = some t) :
    ∃ f, t.params.baseFee = some f ∧ s.params.minPrice ≤ f := by
  have key : ∃ f, t.params.baseFee = some f ∧ s.params.minPrice ≤ f ∧ t.params.minPrice = s.params.minPrice ∧
      t.params.elasticity = s.params.elasticity := by
    induction bs generalizing t with
    | nil => cases h; exact ⟨b, hb, hm, rfl, rfl⟩
    | cons x bs ih =>
      unfold chain at h
      cases hr : chain s bs with
      | none => rw [hr] at h; cases h
      | some u =>
        rw [hr] at h
        obtain ⟨f, h1, h2, h3, h4⟩ := ih (fun y hy => ht y (List.mem_cons_of_mem _ hy)) hr
        obtain ⟨e1, e2, _, e3⟩ := block_params h
        rcases e3 with e3 | ⟨g, hg, e3⟩
        · exact ⟨f, e3.trans h1, h2, e1.trans h3, e2.trans h4⟩
        · refine ⟨g, e3, ?_, e1.trans h3, e2.trans h4⟩
          rw [← h3]
          exact nextFee_params h1 hg (h4 ▸ ht x List.mem_cons_self) (h3 ▸ h2)
  obtain ⟨f, h1, h2, _⟩ := key
  exact ⟨f, h1, h2⟩

example : (chain ⟨sample, 0, 1⟩ (List.replicate 3 ⟨some 40, [8, 2], 4⟩)).map (·.params.baseFee) =
    some (some ((1000 * one - 10 * one) - (1000 * one - 10 * one) * 15 / 20 / 100 -
      ((1000 * one - 10 * one) - (1000 * one - 10 * one) * 15 / 20 / 100) * 15 / 20 / 100)) := by decide +kernel

/-- The gas that counts for the base fee is at least the gas used, at least the wanted gas times the multiplier, and not more
than the larger of the two numbers if the multiplier is at most 1. -/
theorem block_gas_between {s t : State} {wanted used : Nat} (h : endBlock s wanted used = some t) :
    used ≤ t.wanted ∧ wanted * s.params.mult / 10 ^ 18 ≤ t.wanted ∧
    (s.params.mult ≤ 10 ^ 18 → t.wanted ≤ max wanted used) := by
  unfold endBlock at h
  split at h
  · cases h
  · split at h
    · cases h
    · cases h
      show used ≤ blockGas s.params.mult wanted used ∧ _ ≤ blockGas s.params.mult wanted used ∧
        (_ → blockGas s.params.mult wanted used ≤ _)
      generalize s.params.mult = m
      unfold blockGas one
      refine ⟨?_, Nat.div_le_div_right (Nat.le_max_left _ _), ?_⟩
      · rw [Nat.le_div_iff_mul_le (by decide)]
        exact Nat.le_max_right _ _
      · intro hm
        apply Nat.div_le_of_le_mul
        have h1 : wanted * m ≤ wanted * 10 ^ 18 := Nat.mul_le_mul_left _ hm
        omega

example : (endBlock ⟨sample, 0, 1⟩ 31 7).map (·.wanted) = some 15 := by decide +kernel

/-! ## Where the code differs from the property -/

/-- The property that the base fee never falls below the minimum gas price. -/
def NeverBelowMinimum : Prop :=
  ∀ (s t : State) (bs : List Block) (b : Nat), s.params.validate = true → s.params.baseFee = some b →
    s.params.minPrice ≤ b → chain s bs = some t → ∃ f, t.params.baseFee = some f ∧ s.params.minPrice ≤ f

/-- The code violates it when the gas limit is smaller than the elasticity: the target is 0, and the first block with any
gas sets the base fee to 0; afterwards the module reports no base fee at all. -/
theorem zero_target_drops_fee : ¬ NeverBelowMinimum := by
  intro h
  obtain ⟨f, h1, h2⟩ := h ⟨sample, 7, 1⟩ ⟨{ sample with baseFee := some 0 }, 0, 2⟩ [⟨some 1, [], 0⟩] (1000 * one)
    (by decide +kernel) rfl (by decide +kernel) (by decide +kernel)
  cases h1
  exact absurd h2 (by decide +kernel)

theorem zero_target_disables : evmBaseFee { sample with baseFee := some 0 } = none ∧ evmBaseFee sample = some 1000 := by
  decide +kernel

/-- An elasticity of 0 passes the validation of parameters, although the code relies on the opposite (eip1559.go 49-50);
the next block then panics. -/
theorem zero_elasticity_panics {s : State} (limit : Option Nat) {b : Nat} (ha : Active s.params (s.height + 1))
    (hb : s.params.baseFee = some b) (he : s.params.elasticity = 0) : beginBlock s limit = none := by
  have h1 : ¬ s.height + 1 < s.params.enableHeight := by have := ha.2; omega
  have h2 : s.height + 1 ≠ s.params.enableHeight := by have := ha.2; omega
  unfold beginBlock nextFee
  rw [ha.1, hb, decide_eq_false h1, if_neg (by simp), if_neg h2]
  dsimp only
  rw [if_pos he]

example : ({ sample with elasticity := 0 }).validate = true ∧ beginBlock ⟨{ sample with elasticity := 0 }, 0, 1⟩ none = none := by
  decide +kernel

/-- The sum of the gas limits of a block wraps: two huge limits count as nothing. -/
theorem gas_wanted_wraps : gasWanted [2 ^ 63, 2 ^ 63] = 0 := by decide +kernel

end FeeMarket
