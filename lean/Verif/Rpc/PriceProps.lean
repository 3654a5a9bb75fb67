import Verif.Rpc.PriceSpec
/-!
# C90: the suggested gas price is enough for the next block

Proved: with a whole base fee and a whole least price, a base fee great enough for its greatest change to be at
least one, a gas limit that the elasticity divides and numbers within 63 bits, a transaction at the suggested price
is accepted in the next block whatever the newest block used. Without whole numbers it is at most a few units short.

Shown false otherwise: a fraction in the base fee (which is there after the first change) or in the least price, a
small base fee, or a great one.
-/

namespace GasPrice

open FeeMarket

/-! ## Lemmas -/

theorem int64_id {i : Int} (h0 : 0 ≤ i) (h : i < 2 ^ 63) : int64 i = i := by
  unfold int64
  have : (2 : Int) ^ 64 = 2 ^ 63 + 2 ^ 63 := by decide
  rw [Int.emod_eq_of_lt (by omega) (by omega)]
  omega

theorem suggestTip_eq {b e d : Nat} (he : 1 ≤ e) (hov : b * (e - 1) < 2 ^ 63) (hb : b < 2 ^ 63) :
    suggestTip (some b) e d = b * (e - 1) / d := by
  unfold suggestTip
  dsimp only
  have h1 : ((e : Int) - 1) = ((e - 1 : Nat) : Int) := by omega
  have hb' : ((b : Nat) : Int) < 2 ^ 63 := by
    have := Int.ofNat_lt.2 hb
    exact this
  rw [int64_id (Int.natCast_nonneg b) hb', h1, ← Int.natCast_mul]
  have hov' : ((b * (e - 1) : Nat) : Int) < 2 ^ 63 := by
    have := Int.ofNat_lt.2 hov
    exact this
  rw [int64_id (Int.natCast_nonneg _) hov', ← Int.ofNat_tdiv, Int.toNat_natCast]

theorem one_pos : 0 < one := by decide

/-- The greatest next fee. -/
theorem up_bound {b t d e w L : Nat} (ht : 0 < t) (hL : L = t * e) (hw : w ≤ L) (hlt : t < w) :
    b * (w - t) / t / d ≤ b * (e - 1) / d := by
  apply Nat.div_le_div_right
  have h1 : w - t ≤ t * (e - 1) := by
    rw [Nat.mul_sub, Nat.mul_one]
    omega
  calc b * (w - t) / t ≤ b * (t * (e - 1)) / t := Nat.div_le_div_right (Nat.mul_le_mul_left _ h1)
    _ = b * (e - 1) := by
      rw [show b * (t * (e - 1)) = t * (b * (e - 1)) from Nat.mul_left_comm _ _ _, Nat.mul_div_cancel_left _ ht]

/-- What the base fee can be in the next block. -/
theorem next_bound (s t : State) (limit : Option Nat) (b k : Nat) (hb : s.params.baseFee = some b)
    (he : 1 ≤ s.params.elasticity) (hdiv : gasLimit limit = k * s.params.elasticity)
    (hw : s.wanted ≤ gasLimit limit) (h : beginBlock s limit = some t) :
    t.params.minPrice = s.params.minPrice ∧ t.params.noBaseFee = s.params.noBaseFee ∧
    ∃ f, t.params.baseFee = some f ∧
      (f ≤ max b s.params.minPrice ∨ f ≤ b + max (b * (s.params.elasticity - 1) / s.params.denom) one) := by
  unfold beginBlock nextFee at h
  split at h
  · cases h
  · cases h
    exact ⟨rfl, rfl, b, hb, .inl (Nat.le_max_left _ _)⟩
  · rename_i d hd
    cases h
    refine ⟨rfl, rfl, d, rfl, ?_⟩
    split at hd
    · cases hd
    · rw [hb] at hd
      dsimp only at hd
      split at hd
      · cases hd
        exact .inl (Nat.le_max_left _ _)
      · split at hd
        · cases hd
        · have hq : gasLimit limit / s.params.elasticity = k := by rw [hdiv, Nat.mul_div_cancel _ (by omega)]
          rw [hq] at hd
          unfold move at hd
          split at hd
          · cases hd
            exact .inl (Nat.le_max_left _ _)
          · split at hd
            · cases hd
              exact .inl (Nat.zero_le _)
            · split at hd
              · rename_i hlt
                unfold up at hd
                split at hd
                · cases hd
                · cases hd
                  have := up_bound (b := b) (d := s.params.denom) (by omega) hdiv hw hlt
                  exact .inr (Nat.add_le_add_left (by omega) _)
              · unfold down at hd
                split at hd
                · cases hd
                · cases hd
                  exact .inl (Nat.max_le.2 ⟨Nat.le_trans (Nat.sub_le _ _) (Nat.le_max_left _ _), Nat.le_max_right _ _⟩)

theorem evmBase_eq {p : Params} {b f : Nat} (hp : p.baseFee = some f) (h : evmBaseFee p = some b) :
    b = f / one ∧ p.noBaseFee = false := by
  unfold evmBaseFee getBaseFee at h
  split at h
  · cases h
  · rename_i hn
    rw [hp] at h
    dsimp only at h
    split at h
    · cases h
    · cases h
      exact ⟨rfl, by cases h : p.noBaseFee <;> simp_all⟩

theorem price_ge {p : Params} {b rpcMin : Nat} (hp : p.baseFee = some b) (hn : p.noBaseFee = false) (hb : b ≠ 0)
    (he : 1 ≤ p.elasticity) (hov : b / one * (p.elasticity - 1) < 2 ^ 63) (hbb : b / one < 2 ^ 63) :
    gasPrice p rpcMin = max (b / one * (p.elasticity - 1) / p.denom + b / one) (p.minPrice / one) := by
  unfold gasPrice
  have : evmBaseFee p = some (b / one) := by
    unfold evmBaseFee getBaseFee
    rw [hn, hp]
    dsimp only
    rw [if_neg (by decide), if_neg hb]
    rfl
  rw [this]
  dsimp only
  rw [suggestTip_eq he hov hbb]

theorem lt_succ_mul {x d : Nat} (hd : 0 < d) : x < (x / d + 1) * d := by
  have := Nat.div_add_mod x d
  have := Nat.mod_lt x hd
  rw [Nat.add_mul, Nat.one_mul, Nat.mul_comm (x / d)]
  omega

/-- Whole base fees. -/
theorem whole_bound {u d B X f : Nat} (hu : 0 < u) (hd : 0 < d) (h1 : 1 ≤ X / d) (hf : f ≤ B * u + max (X * u / d) u) :
    f / u ≤ X / d + B := by
  have hlt : X * u / d < (X / d + 1) * u := by
    rw [Nat.div_lt_iff_lt_mul hd]
    calc X * u < (X / d + 1) * d * u := Nat.mul_lt_mul_of_pos_right (lt_succ_mul hd) hu
      _ = (X / d + 1) * u * d := by rw [Nat.mul_assoc, Nat.mul_comm d, ← Nat.mul_assoc]
  have hone : u < (X / d + 1) * u := by
    have : 2 * u ≤ (X / d + 1) * u := Nat.mul_le_mul_right _ (by omega)
    omega
  have hmax : max (X * u / d) u < (X / d + 1) * u := Nat.max_lt.2 ⟨hlt, hone⟩
  have hf2 : f < (B + (X / d + 1)) * u := by
    rw [Nat.add_mul]
    exact Nat.lt_of_le_of_lt hf (Nat.add_lt_add_left hmax _)
  have := (Nat.div_lt_iff_lt_mul hu).2 hf2
  omega

/-- Base fees with fractions. -/
theorem fraction_bound {u d B e b f : Nat} (hu : 0 < u) (hd : 0 < d) (hbB : b < (B + 1) * u)
    (hf : f ≤ b + max (b * e / d) u) : f / u ≤ B * e / d + B + (2 + e / d) := by
  have hX : b * e / d < (B * e / d + 1 + (e / d + 1)) * u := by
    rw [Nat.div_lt_iff_lt_mul hd]
    calc b * e ≤ (B + 1) * u * e := Nat.mul_le_mul_right _ (Nat.le_of_lt hbB)
      _ = (B * e + e) * u := by rw [Nat.mul_assoc, Nat.mul_comm u, ← Nat.mul_assoc, Nat.add_mul, Nat.one_mul]
      _ < ((B * e / d + 1) * d + (e / d + 1) * d) * u :=
        Nat.mul_lt_mul_of_pos_right (Nat.add_lt_add (lt_succ_mul hd) (lt_succ_mul hd)) hu
      _ = (B * e / d + 1 + (e / d + 1)) * u * d := by
        rw [← Nat.add_mul, Nat.mul_assoc, Nat.mul_comm d, ← Nat.mul_assoc]
  have h1 : u ≤ (B * e / d + 1 + (e / d + 1)) * u := Nat.le_mul_of_pos_left _ (Nat.succ_pos _)
  have h2 : f < (B + 1 + (B * e / d + 1 + (e / d + 1))) * u := by
    rw [Nat.add_mul (B + 1)]
    exact Nat.lt_of_le_of_lt hf (Nat.add_lt_add_of_lt_of_le hbB (Nat.max_le.2 ⟨Nat.le_of_lt hX, h1⟩))
  have := (Nat.div_lt_iff_lt_mul hu).2 h2
  omega

/-! ## The property -/

/-- **C90 (the suggested price is enough).** For a whole base fee of `B` and a whole least price, where the greatest
change is at least one and the numbers stay within 63 bits: whatever gas the newest block used, a transaction at the
suggested price covers the base fee and the least price in the next block. -/
theorem price_enough_partial (s t : State) (limit : Option Nat) (rpcMin B k m : Nat)
    (hbase : s.params.baseFee = some (B * one)) (hB : 0 < B) (hmin : s.params.minPrice = m * one)
    (hd : 0 < s.params.denom) (he : 1 ≤ s.params.elasticity)
    (hgreat : s.params.denom ≤ B * (s.params.elasticity - 1)) (hov : B * (s.params.elasticity - 1) < 2 ^ 63)
    (hdiv : gasLimit limit = k * s.params.elasticity) (hw : s.wanted ≤ gasLimit limit)
    (h : beginBlock s limit = some t) : Enough t.params (gasPrice s.params rpcMin) := by
  obtain ⟨h1, h2, f, hf, hbound⟩ := next_bound s t limit _ k hbase he hdiv hw h
  have hmp : m ≤ gasPrice s.params rpcMin := by
    unfold gasPrice
    rw [hmin, Nat.mul_div_cancel _ one_pos]
    exact Nat.le_max_right _ _
  refine ⟨fun b hb => ?_, fun gas => ?_⟩
  · obtain ⟨rfl, hn⟩ := evmBase_eq hf hb
    rw [h2] at hn
    have hpos : 1 ≤ s.params.elasticity - 1 := by
      rcases Nat.eq_zero_or_pos (s.params.elasticity - 1) with h0 | h0
      · rw [h0, Nat.mul_zero] at hgreat; omega
      · exact h0
    have hBl : B < 2 ^ 63 := Nat.lt_of_le_of_lt (Nat.le_mul_of_pos_right _ hpos) hov
    have hdivB : B * one / one = B := Nat.mul_div_cancel _ one_pos
    have hp := price_ge (rpcMin := rpcMin) hbase hn (Nat.mul_ne_zero (by omega) (by decide)) he
      (by rw [hdivB]; exact hov) (by rw [hdivB]; exact hBl)
    rw [hdivB, hmin, Nat.mul_div_cancel _ one_pos] at hp
    rw [hp]
    rcases hbound with hbound | hbound
    · rw [hmin] at hbound
      have hm : f ≤ max B m * one := by
        rcases Nat.le_total (B * one) (m * one) with hh | hh
        · rw [Nat.max_eq_right hh] at hbound
          exact Nat.le_trans hbound (Nat.mul_le_mul_right _ (Nat.le_max_right _ _))
        · rw [Nat.max_eq_left hh] at hbound
          exact Nat.le_trans hbound (Nat.mul_le_mul_right _ (Nat.le_max_left _ _))
      have h3 : f / one ≤ max B m := by
        rw [← Nat.mul_div_cancel (max B m) one_pos]
        exact Nat.div_le_div_right hm
      exact Nat.le_trans h3 (Nat.max_le.2 ⟨Nat.le_trans (Nat.le_add_left _ _) (Nat.le_max_left _ _), Nat.le_max_right _ _⟩)
    · have hd1 : 1 ≤ B * (s.params.elasticity - 1) / s.params.denom :=
        (Nat.le_div_iff_mul_le hd).2 (by rw [Nat.one_mul]; exact hgreat)
      have hmul : B * one * (s.params.elasticity - 1) = B * (s.params.elasticity - 1) * one := by
        rw [Nat.mul_assoc, Nat.mul_comm one, ← Nat.mul_assoc]
      rw [hmul] at hbound
      exact Nat.le_trans (whole_bound one_pos hd hd1 hbound) (Nat.le_max_left _ _)
  · rw [h1, hmin]
    exact Nat.mul_le_mul_right _ (Nat.mul_le_mul_right _ hmp)

/-- The parameters a chain starts with: base fee 10^9, least price 10^9, elasticity 2, denominator 8. -/
def start : State := ⟨⟨false, 8, 2, some (10 ^ 9 * one), 0, 10 ^ 9 * one, one / 2⟩, 40000000, 7⟩

example : ∃ t, beginBlock start (some 40000000) = some t ∧ evmBaseFee t.params = some 1125000000 ∧
    gasPrice start.params 5 = 1125000000 ∧ baseOk t.params 1125000000 = true ∧
    Enough t.params (gasPrice start.params 5) :=
  ⟨_, rfl, by decide +kernel, by decide +kernel, by decide +kernel,
    price_enough_partial start _ (some 40000000) 5 (10 ^ 9) 20000000 (10 ^ 9) rfl (by decide) rfl (by decide) (by decide)
      (by decide) (by decide) (by decide) (by decide) rfl⟩

/-- **C90 (nearly enough).** With fractions the suggested price is short of the next base fee by at most two and the
greatest relative change: two units for the parameters a chain starts with. -/
theorem price_nearly (s t : State) (limit : Option Nat) (rpcMin b k : Nat)
    (hbase : s.params.baseFee = some b) (hb : b ≠ 0)
    (hd : 0 < s.params.denom) (he : 1 ≤ s.params.elasticity)
    (hov : b / one * (s.params.elasticity - 1) < 2 ^ 63) (hbl : b / one < 2 ^ 63)
    (hdiv : gasLimit limit = k * s.params.elasticity) (hw : s.wanted ≤ gasLimit limit)
    (h : beginBlock s limit = some t) :
    Nearly (2 + (s.params.elasticity - 1) / s.params.denom) t.params (gasPrice s.params rpcMin) := by
  obtain ⟨_, h2, f, hf, hbound⟩ := next_bound s t limit _ k hbase he hdiv hw h
  intro c hc
  obtain ⟨rfl, hn⟩ := evmBase_eq hf hc
  rw [h2] at hn
  rw [price_ge (rpcMin := rpcMin) hbase hn hb he hov hbl]
  have hbB : b < (b / one + 1) * one := lt_succ_mul one_pos
  rcases hbound with hbound | hbound
  · refine Nat.le_trans ?_ (Nat.le_add_right _ _)
    rcases Nat.le_total b s.params.minPrice with hh | hh
    · rw [Nat.max_eq_right hh] at hbound
      exact Nat.le_trans (Nat.div_le_div_right hbound) (Nat.le_max_right _ _)
    · rw [Nat.max_eq_left hh] at hbound
      exact Nat.le_trans (Nat.div_le_div_right hbound) (Nat.le_trans (Nat.le_add_left _ _) (Nat.le_max_left _ _))
  · exact Nat.le_trans (fraction_bound one_pos hd hbB hbound) (Nat.add_le_add_right (Nat.le_max_left _ _) _)

/-- A full block after which the base fee has a fraction, at parameters a chain starts with. -/
def fraction : State := { start with params := { start.params with baseFee := some (15 * one + 9 * 10 ^ 17), minPrice := 0 } }

example : ∃ t, beginBlock fraction (some 40000000) = some t ∧
    Nearly 2 t.params (gasPrice fraction.params 5) ∧ evmBaseFee t.params = some 17 ∧ gasPrice fraction.params 5 = 16 :=
  ⟨_, rfl, price_nearly fraction _ (some 40000000) 5 (15 * one + 9 * 10 ^ 17) 20000000 rfl (by decide) (by decide) (by decide)
    (by decide) (by decide) (by decide) (by decide) rfl, by decide +kernel, by decide +kernel⟩

/-! ## Where it is not enough -/

/-- **C90 (fraction of the base fee).** The suggested price is refused in the block after a full one when the base
fee has a fraction. -/
theorem short_by_fraction : ∃ t, beginBlock fraction (some 40000000) = some t ∧
    baseOk t.params (gasPrice fraction.params 5) = false := ⟨_, rfl, by decide +kernel⟩

/-- Full blocks from the start on: each of them uses all its gas. -/
def full : Nat → Option State
  | 0 => some start
  | n + 1 => match full n with
    | none => none
    | some s => block s ⟨some 40000000, [40000000], 40000000⟩

/-- At the parameters a chain starts with, after five full blocks the suggested price is one short of the base fee of
the next. -/
theorem short_after_five :
    ∃ s t, full 5 = some s ∧ beginBlock s (some 40000000) = some t ∧ evmBaseFee t.params = some (gasPrice s.params 5 + 1) ∧
      baseOk t.params (gasPrice s.params 5) = false := by
  have h5 : (full 5).isSome = true := by decide +kernel
  obtain ⟨s, hs⟩ := Option.isSome_iff_exists.1 h5
  have hn : ((full 5).bind fun s => beginBlock s (some 40000000)).isSome = true := by decide +kernel
  rw [hs] at hn
  obtain ⟨t, ht⟩ := Option.isSome_iff_exists.1 hn
  have ht' : beginBlock s (some 40000000) = some t := ht
  have e : ((full 5).bind fun s => (beginBlock s (some 40000000)).map fun t =>
      (decide (evmBaseFee t.params = some (gasPrice s.params 5 + 1)), baseOk t.params (gasPrice s.params 5))) =
      some (true, false) := by decide +kernel
  rw [hs, Option.bind_some, ht', Option.map_some] at e
  have e' := Option.some.inj e
  exact ⟨s, t, hs, ht', of_decide_eq_true (congrArg Prod.fst e'), congrArg Prod.snd e'⟩

/-- A small base fee: the least change of one is not in the suggestion. -/
theorem short_when_small :
    ∃ s t, s.params.baseFee = some (3 * one) ∧ beginBlock s (some 40000000) = some t ∧
      baseOk t.params (gasPrice s.params 5) = false :=
  ⟨{ start with params := { start.params with baseFee := some (3 * one), minPrice := 0 } }, _, rfl, rfl, by decide +kernel⟩

/-- A base fee of 2^63: the computation overflows, and the "impossible" negative tip becomes zero. -/
theorem short_when_great :
    ∃ s t, s.params.baseFee = some (2 ^ 63 * one) ∧ beginBlock s (some 40000000) = some t ∧
      suggestTip (some (2 ^ 63)) 2 8 = 0 ∧ (evmBaseFee t.params).map (· - gasPrice s.params 5) = some (2 ^ 60) :=
  ⟨{ start with params := { start.params with baseFee := some (2 ^ 63 * one) } }, _, rfl, rfl, by decide +kernel, by decide +kernel⟩

/-- A least price with a fraction: the suggestion loses it and is refused, whatever the gas. -/
theorem short_by_least_price (gas : Nat) (hg : 0 < gas) :
    ∃ p : Params, p.minPrice = 15 * 10 ^ 17 ∧ p.baseFee = some one ∧ gasPrice p 5 = 1 ∧ globalOk p 1 gas = false := by
  refine ⟨⟨false, 8, 2, some one, 0, 15 * 10 ^ 17, one / 2⟩, rfl, rfl, by decide +kernel, ?_⟩
  unfold globalOk
  dsimp only
  have h : 1 * gas * one < 15 * 10 ^ 17 * gas := by
    rw [Nat.one_mul, Nat.mul_comm]
    exact Nat.mul_lt_mul_of_pos_right (by decide) hg
  rw [decide_eq_true h]
  rfl

/-- What `Enough` means to the checks of a transaction. -/
theorem enough_accepted (p : Params) (price : Nat) (h : Enough p price) :
    (∀ b, evmBaseFee p = some b → baseOk p price = true) ∧ ∀ gas, globalOk p price gas = true := by
  refine ⟨fun b hb => ?_, fun gas => ?_⟩
  · unfold baseOk
    rw [hb]
    dsimp only
    have := h.1 b hb
    rw [decide_eq_false (by omega)]
    rfl
  · unfold globalOk
    have := h.2 gas
    rw [Nat.mul_right_comm] at this
    rw [decide_eq_false (p := price * gas * one < p.minPrice * gas) (by omega), Bool.not_false, Bool.or_true]

end GasPrice
