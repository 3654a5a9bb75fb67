import Verif.VM.Gas
/-!
# Gas of memory and calls (C64)
-/
namespace VM

/-! ### Specification -/

/-- The cost of a memory of `w` words in the yellow paper: 3 per word and the square over 512. -/
def Cmem (w : Nat) : Nat := 3 * w + w * w / 512

/-- A memory whose size is a number of words and for which exactly its cost was paid. -/
structure MemOk (len last : Nat) : Prop where
  words : len % 32 = 0
  bound : len ≤ 0x1FFFFFFFE0
  paid : last = Cmem (len / 32)

/-! ### Proof -/

theorem Cmem_mono {a b : Nat} (h : a ≤ b) : Cmem a ≤ Cmem b := by
  unfold Cmem
  have : a * a ≤ b * b := Nat.mul_le_mul h h
  have : a * a / 512 ≤ b * b / 512 := Nat.div_le_div_right this
  omega

theorem toWordSize_eq {n : Nat} (h : n ≤ 0x1FFFFFFFE0) : toWordSize n = (n + 31) / 32 := by
  unfold toWordSize
  rw [if_neg]
  have : (2 : Nat) ^ 64 - 1 - 31 = 18446744073709551584 := by decide
  omega

theorem totalFee_eq {w : Nat} (h : w ≤ 0xFFFFFFFF) : totalFee w = Cmem w ∧ Cmem w ≤ 2 ^ 56 := by
  have hsq : w * w ≤ 0xFFFFFFFF * 0xFFFFFFFF := Nat.mul_le_mul h h
  have hsq' : w * w ≤ 18446744065119617025 := hsq
  have h64 : (2 : Nat) ^ 64 = 18446744073709551616 := by decide
  have h56 : (2 : Nat) ^ 56 = 72057594037927936 := by decide
  unfold totalFee Cmem add64
  rw [h64, h56]
  generalize w * w = q at *
  omega

/-- Expanding memory costs exactly the difference of the costs, no arithmetic wraps, and the memory stays well paid. Sizes above the limit are refused. -/
theorem expansion_fee {len last newSize : Nat} (h : MemOk len last) :
    (newSize > 0x1FFFFFFFE0 ∧ memoryGasCost len last newSize = none) ∨
    (newSize ≤ 0x1FFFFFFFE0 ∧ ∃ fee last', memoryGasCost len last newSize = some (fee, last') ∧
      let len' := max len ((newSize + 31) / 32 * 32)
      MemOk len' last' ∧ fee = Cmem (len' / 32) - Cmem (len / 32) ∧ fee ≤ 2 ^ 56 ∧ Cmem (len / 32) + fee = Cmem (len' / 32)) := by
  by_cases hb : newSize > 0x1FFFFFFFE0
  · refine .inl ⟨hb, ?_⟩
    unfold memoryGasCost
    rw [if_neg (by omega), if_pos hb]
  · refine .inr ⟨by omega, ?_⟩
    have hw := toWordSize_eq (n := newSize) (by omega)
    obtain ⟨h1, h2, h3⟩ := h
    by_cases hgt : (newSize + 31) / 32 * 32 > len
    · have hm : max len ((newSize + 31) / 32 * 32) = (newSize + 31) / 32 * 32 := by omega
      obtain ⟨t1, t2⟩ := totalFee_eq (w := (newSize + 31) / 32) (by omega)
      have hmono : Cmem (len / 32) ≤ Cmem ((newSize + 31) / 32) := Cmem_mono (by omega)
      have hsub : sub64 (Cmem ((newSize + 31) / 32)) last = Cmem ((newSize + 31) / 32) - Cmem (len / 32) := by
        unfold sub64
        rw [h3]
        have h64 : (2 : Nat) ^ 64 = 18446744073709551616 := by decide
        have h56 : (2 : Nat) ^ 56 = 72057594037927936 := by decide
        rw [h64]
        rw [h56] at t2
        omega
      refine ⟨Cmem ((newSize + 31) / 32) - Cmem (len / 32), Cmem ((newSize + 31) / 32), ?_, ?_⟩
      · unfold memoryGasCost
        rw [if_neg (by omega), if_neg hb, hw, if_pos hgt, t1, hsub]
      · dsimp only
        rw [hm, show (newSize + 31) / 32 * 32 / 32 = (newSize + 31) / 32 by omega]
        refine ⟨⟨by omega, by omega, ?_⟩, rfl, Nat.le_trans (Nat.sub_le _ _) t2, by omega⟩
        rw [show (newSize + 31) / 32 * 32 / 32 = (newSize + 31) / 32 by omega]
    · have hm : max len ((newSize + 31) / 32 * 32) = len := by omega
      refine ⟨0, last, ?_, ?_⟩
      · unfold memoryGasCost
        split
        · rfl
        · rw [hw, if_neg hgt]
      · dsimp only
        rw [hm]
        exact ⟨⟨h1, h2, h3⟩, by omega, Nat.zero_le _, rfl⟩

/-- A run of expansions. -/
def expansions : (len last : Nat) → List Nat → Option (Nat × Nat)
  | len, _, [] => some (len, 0)
  | len, last, n :: ns =>
    match memoryGasCost len last n with
    | none => none
    | some (fee, last') =>
      match expansions (max len ((n + 31) / 32 * 32)) last' ns with
      | none => none
      | some (len', fees) => some (len', fee + fees)

/-- What is paid in total for memory depends on its final size only, not on the steps. -/
theorem expansions_total : ∀ (ns : List Nat) {len last len' fees : Nat}, MemOk len last → expansions len last ns = some (len', fees) →
    Cmem (len / 32) + fees = Cmem (len' / 32) := by
  intro ns
  induction ns with
  | nil => intro len last len' fees _ h; cases h; rfl
  | cons n ns ih =>
    intro len last len' fees hm h
    unfold expansions at h
    rcases expansion_fee (newSize := n) hm with ⟨_, e⟩ | ⟨_, fee, last', e, h1, _, _, h2⟩
    · rw [e] at h; cases h
    · rw [e] at h
      dsimp only at h
      cases hx : expansions (max len ((n + 31) / 32 * 32)) last' ns with
      | none => rw [hx] at h; cases h
      | some p =>
        obtain ⟨l, f⟩ := p
        rw [hx] at h
        cases h
        have := ih h1 hx
        omega

/-- A call that can be paid: the callee gets at most all but a 64th of what is left after all other costs, what it gets is part of the cost, and it gets
all it asks for if that is within the limit. In particular the unchecked subtraction does no harm when the caller cannot pay the base cost. -/
theorem call_gas_sound {gas own mem : Nat} {warm : Bool} {asked : Word} {cost child : Nat} (hg : gas < 2 ^ 64) (hown : own ≤ 34000) (hmem : mem ≤ 2 ^ 56)
    (h : callDynGas gas warm own mem asked = some (cost, child)) (hpay : cost ≤ gas) :
    let other := own + mem + (if warm then 0 else 2500)
    cost = other + child ∧ other ≤ gas ∧ child ≤ (gas - other) - (gas - other) / 64 ∧
      (asked.toNat ≤ (gas - other) - (gas - other) / 64 → child = asked.toNat) ∧ (¬ asked.toNat ≤ (gas - other) - (gas - other) / 64 → child = (gas - other) - (gas - other) / 64) := by
  have h64 : (2 : Nat) ^ 64 = 18446744073709551616 := by decide
  have h56 : (2 : Nat) ^ 56 = 72057594037927936 := by decide
  rw [h64] at hg
  rw [h56] at hmem
  unfold callDynGas at h
  dsimp only at h
  have hcold : (if warm = true then 0 else 2600 - 100) = (if warm = true then 0 else 2500) := rfl
  rw [hcold] at h
  have hc : (if warm = true then 0 else 2500) ≤ 2500 := by split <;> omega
  generalize (if warm = true then 0 else 2500) = cold at *
  split at h
  · cases h
  · rename_i hcg
    have hb : safeAdd own mem = some (own + mem) := by
      unfold safeAdd; rw [if_pos (by rw [h64]; omega)]
    rw [hb] at h
    dsimp only at h
    unfold safeAdd at h
    split at h
    · cases h
    · rename_i total htot
      split at htot
      · rename_i hlt
        cases htot
        injection h with h
        injection h with h1 h2
        rw [h2] at h1 hlt
        rw [h64] at hlt
        unfold add64 at h1
        rw [h64] at h1
        unfold callGas is64 sub64 at h2
        dsimp only at h2
        rw [h64] at h2
        simp only [decide_eq_false_iff_not] at h2
        generalize asked.toNat = a at *
        have hl : own + mem ≤ gas - cold := by
          split at h2 <;> omega
        have e : (gas - cold + 18446744073709551616 - (own + mem)) % 18446744073709551616 = gas - (own + mem + cold) := by omega
        rw [e] at h2
        generalize hq : gas - (own + mem + cold) = q at *
        split at h2 <;> (refine ⟨?_, ?_, ?_, ?_, ?_⟩ <;> omega)
      · cases htot

example : MemOk 0 0 := ⟨rfl, by decide, rfl⟩
example : expansions 0 0 [1, 100, 32, 1000, 70000] = some (70016, 3 * 2188 + 9350) := by decide +kernel
/-- A caller with 10000 gas transfers value to a cold account: 9000 + 2500 cannot be paid. -/
example : (callDynGas 10000 false 9000 0 0xffff#256).map (fun p => decide (p.1 ≤ 10000)) = some false := by decide +kernel
example : callDynGas 100000 false 9000 0 0xffffffff#256 = some (11500 + 87118, 87118) := by decide +kernel

end VM
