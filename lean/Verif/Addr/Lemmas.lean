import Verif.Addr.Bech32

/-!
# Helper lemmas about address strings
-/

namespace Addr

/-! ## Digits -/

theorem value_snoc (b : Nat) (ds : List Nat) (d : Nat) :
    value b (ds ++ [d]) = value b ds * b + d := by
  simp [value, List.foldl_append]

theorem digits_length (b : Nat) : ∀ k n, (digits b k n).length = k
  | 0, _ => rfl
  | k + 1, n => by simp [digits, digits_length b k]

theorem digits_lt {b : Nat} (hb : 0 < b) : ∀ k n, ∀ d ∈ digits b k n, d < b
  | 0, _, d, h => by cases h
  | k + 1, n, d, h => by
    rcases List.mem_append.mp h with h | h
    · exact digits_lt hb k _ d h
    · rw [List.mem_singleton.mp h]; exact Nat.mod_lt _ hb

theorem value_digits (b : Nat) : ∀ k n, value b (digits b k n) = n % b ^ k
  | 0, n => by simp [digits, value, Nat.mod_one]
  | k + 1, n => by
    rw [digits, value_snoc, value_digits b k, Nat.pow_succ, Nat.mul_comm (b ^ k) b,
      Nat.mod_mul, Nat.mul_comm, Nat.add_comm]

theorem snoc_cases {α : Type} (l : List α) : l = [] ∨ ∃ a x, l = a ++ [x] := by
  induction l with
  | nil => exact Or.inl rfl
  | cons y ys ih =>
    rcases ih with rfl | ⟨a, x, rfl⟩
    · exact Or.inr ⟨[], y, rfl⟩
    · exact Or.inr ⟨y :: a, x, rfl⟩

theorem value_lt {b : Nat} : ∀ (k : Nat) (ds : List Nat), ds.length = k →
    (∀ d ∈ ds, d < b) → value b ds < b ^ k
  | 0, ds, hl, _ => by
    rw [List.length_eq_zero_iff.mp hl]; simp [value]
  | k + 1, ds, hl, hd => by
    rcases snoc_cases ds with rfl | ⟨a, x, rfl⟩
    · cases hl
    · have ha : a.length = k := by simpa using hl
      have h1 := value_lt k a ha (fun d h => hd d (List.mem_append_left _ h))
      have h2 : x < b := hd x (List.mem_append_right _ (List.mem_singleton.mpr rfl))
      rw [value_snoc, Nat.pow_succ]
      have h3 : (value b a + 1) * b ≤ b ^ k * b := Nat.mul_le_mul_right _ h1
      rw [Nat.add_mul, Nat.one_mul] at h3
      omega

theorem digits_value {b : Nat} : ∀ (k : Nat) (ds : List Nat), ds.length = k →
    (∀ d ∈ ds, d < b) → digits b k (value b ds) = ds
  | 0, ds, hl, _ => by
    rw [List.length_eq_zero_iff.mp hl]; rfl
  | k + 1, ds, hl, hd => by
    rcases snoc_cases ds with rfl | ⟨a, x, rfl⟩
    · cases hl
    · have ha : a.length = k := by simpa using hl
      have h2 : x < b := hd x (List.mem_append_right _ (List.mem_singleton.mpr rfl))
      have hb : 0 < b := Nat.lt_of_le_of_lt (Nat.zero_le _) h2
      rw [value_snoc, digits, Nat.mul_comm, Nat.mul_add_div hb, Nat.div_eq_of_lt h2, Nat.add_zero,
        Nat.mul_add_mod, Nat.mod_eq_of_lt h2,
        digits_value k a ha (fun d h => hd d (List.mem_append_left _ h))]

/-! ## Groups of bits -/

theorem pow_256 (n : Nat) : 256 ^ n = 2 ^ (8 * n) := by
  rw [Nat.pow_mul]

theorem pow_32 (n : Nat) : 32 ^ n = 2 ^ (5 * n) := by
  rw [Nat.pow_mul]

theorem toGroups_lt (bs : List Nat) : ∀ g ∈ toGroups bs, g < 32 :=
  digits_lt (by decide) _ _

theorem toGroups_length (bs : List Nat) : (toGroups bs).length = (8 * bs.length + 4) / 5 :=
  digits_length ..

theorem ofGroups_toGroups {bs : List Nat} (hb : ∀ b ∈ bs, b < 256) :
    ofGroups (toGroups bs) = some bs := by
  have hv := value_lt bs.length bs rfl hb
  rw [pow_256] at hv
  unfold ofGroups
  rw [toGroups_length]
  have hm : 5 * ((8 * bs.length + 4) / 5) / 8 = bs.length := by omega
  have hval : value 32 (toGroups bs)
      = value 256 bs * 2 ^ (5 * ((8 * bs.length + 4) / 5) - 8 * bs.length) := by
    unfold toGroups
    rw [value_digits, pow_32]
    apply Nat.mod_eq_of_lt
    have e : 2 ^ (5 * ((8 * bs.length + 4) / 5))
        = 2 ^ (8 * bs.length) * 2 ^ (5 * ((8 * bs.length + 4) / 5) - 8 * bs.length) := by
      rw [← Nat.pow_add]; congr 1; omega
    rw [e]
    exact Nat.mul_lt_mul_of_pos_right hv (Nat.two_pow_pos _)
  dsimp only
  rw [hm, hval, if_pos ⟨by omega, Nat.mul_mod_left _ _⟩, Nat.mul_div_cancel _ (Nat.two_pow_pos _),
    digits_value _ _ rfl hb]

theorem toGroups_ofGroups {gs bs : List Nat} (hg : ∀ g ∈ gs, g < 32) (h : ofGroups gs = some bs) :
    toGroups bs = gs ∧ ∀ b ∈ bs, b < 256 := by
  unfold ofGroups at h
  dsimp only at h
  split at h
  · rename_i hc
    obtain ⟨hp, hz⟩ := hc
    injection h with h
    have hv := value_lt gs.length gs rfl hg
    rw [pow_32] at hv
    have hbl : bs.length = 5 * gs.length / 8 := by rw [← h]; exact digits_length ..
    refine ⟨?_, by rw [← h]; exact digits_lt (by decide) _ _⟩
    have hval : value 256 bs = value 32 gs / 2 ^ (5 * gs.length - 8 * (5 * gs.length / 8)) := by
      rw [← h, value_digits, pow_256]
      apply Nat.mod_eq_of_lt
      rw [Nat.div_lt_iff_lt_mul (Nat.two_pow_pos _), ← Nat.pow_add]
      have e : 8 * (5 * gs.length / 8) + (5 * gs.length - 8 * (5 * gs.length / 8)) = 5 * gs.length := by
        omega
      rw [e]; exact hv
    unfold toGroups
    have hm : (8 * bs.length + 4) / 5 = gs.length := by omega
    dsimp only
    rw [hm, hval, hbl, Nat.div_mul_cancel (Nat.dvd_of_mod_eq_zero hz)]
    exact digits_value _ _ rfl hg
  · cases h

/-! ## Characters -/

theorem valueOf_charOf : ∀ v < 32, valueOf (charOf v) = some v := by decide +kernel

theorem charOf_valueOf {c v : Nat} (h : valueOf c = some v) : v < 32 ∧ charOf v = c := by
  unfold valueOf at h
  split at h
  · rename_i hl
    injection h with h
    subst h
    refine ⟨hl, ?_⟩
    have hl' : charset.idxOf c < charset.length := hl
    have hm := List.idxOf_lt_length_iff.mp hl'
    rw [charOf, List.getD_eq_getElem?_getD, List.getElem?_eq_getElem hl',
      List.getElem_idxOf hl']
    rfl
  · cases h

theorem valuesOf_map {vs : List Nat} (h : ∀ v ∈ vs, v < 32) :
    valuesOf (vs.map charOf) = some vs := by
  induction vs with
  | nil => rfl
  | cons v vs ih =>
    rw [List.map_cons, valuesOf, valueOf_charOf v (h v List.mem_cons_self),
      ih (fun x hx => h x (List.mem_cons_of_mem _ hx))]

theorem map_valuesOf : ∀ {s vs : List Nat}, valuesOf s = some vs →
    vs.map charOf = s ∧ ∀ v ∈ vs, v < 32
  | [], vs, h => by
    injection h with h; subst h; exact ⟨rfl, by intro v hv; cases hv⟩
  | c :: cs, vs, h => by
    rw [valuesOf] at h
    split at h
    · rename_i v ws hv hw
      injection h with h; subst h
      obtain ⟨h1, h2⟩ := charOf_valueOf hv
      obtain ⟨h3, h4⟩ := map_valuesOf hw
      refine ⟨by rw [List.map_cons, h2, h3], ?_⟩
      intro x hx
      rcases List.mem_cons.mp hx with rfl | hx
      · exact h1
      · exact h4 x hx
    · cases h

/-- What is known about the characters of the data part. -/
theorem charOf_plain : ∀ v < 32, charOf v ≠ 49 ∧ 33 ≤ charOf v ∧ charOf v ≤ 126 ∧
    isUpper (charOf v) = false ∧ lower (charOf v) = charOf v := by decide +kernel

/-! ## The separator -/

theorem splitLast_none {s : Str} (h : 49 ∉ s) : splitLast s = none := by
  induction s with
  | nil => rfl
  | cons c cs ih =>
    rw [splitLast, ih (fun hm => h (List.mem_cons_of_mem _ hm))]
    dsimp only
    rw [if_neg (fun (e : c = 49) => h (by rw [e]; exact List.mem_cons_self))]

theorem splitLast_append {d : Str} (hd : 49 ∉ d) : ∀ h : Str, splitLast (h ++ 49 :: d) = some (h, d)
  | [] => by
    rw [List.nil_append, splitLast, splitLast_none hd]
    dsimp only
    rw [if_pos rfl]
  | c :: h => by
    rw [List.cons_append, splitLast, splitLast_append hd h]

theorem splitLast_some : ∀ {s h d : Str}, splitLast s = some (h, d) → s = h ++ 49 :: d
  | [], _, _, e => by cases e
  | c :: cs, h, d, e => by
    rw [splitLast] at e
    split at e
    · rename_i h' d' he
      injection e with e
      injection e with e1 e2
      subst e1; subst e2
      rw [splitLast_some he]; rfl
    · split at e
      · rename_i hc
        injection e with e
        injection e with e1 e2
        subst e1; subst e2; subst hc; rfl
      · cases e

/-! ## The checksum is linear -/

/-- The checksum step without a new value. -/
def shiftStep (c : BitVec 30) : BitVec 30 := ((c &&& 0x1ffffff#30) <<< 5) ^^^ generator c

theorem polyStep_eq (c : BitVec 30) (v : Nat) : polyStep c v = shiftStep c ^^^ BitVec.ofNat 30 v := rfl

theorem xor_swap4 (a b c d : BitVec 30) : (a ^^^ b) ^^^ (c ^^^ d) = (a ^^^ c) ^^^ (b ^^^ d) := by
  rw [BitVec.xor_assoc, BitVec.xor_assoc, ← BitVec.xor_assoc b c d, ← BitVec.xor_assoc c b d,
    BitVec.xor_comm b c]

theorem ite_xor (p q : Bool) (g : BitVec 30) :
    (if (p ^^ q) = true then g else 0) = (if p = true then g else 0) ^^^ (if q = true then g else 0) := by
  cases p <;> cases q <;> simp

theorem generator_xor (x y : BitVec 30) : generator (x ^^^ y) = generator x ^^^ generator y := by
  unfold generator
  simp only [BitVec.getLsbD_xor, ite_xor]
  simp only [BitVec.xor_assoc]
  ac_rfl

theorem and_xor (x y m : BitVec 30) : (x ^^^ y) &&& m = (x &&& m) ^^^ (y &&& m) := by
  apply BitVec.eq_of_getLsbD_eq
  intro i _
  simp only [BitVec.getLsbD_and, BitVec.getLsbD_xor]
  cases x.getLsbD i <;> cases y.getLsbD i <;> cases m.getLsbD i <;> rfl

theorem shiftStep_xor (x y : BitVec 30) : shiftStep (x ^^^ y) = shiftStep x ^^^ shiftStep y := by
  unfold shiftStep
  rw [and_xor, BitVec.shiftLeft_xor_distrib, generator_xor]
  exact xor_swap4 _ _ _ _

theorem shiftStep_zero : shiftStep 0 = 0 := by decide +kernel

/-- Several empty steps. -/
def shifts : Nat → BitVec 30 → BitVec 30
  | 0, c => c
  | n + 1, c => shifts n (shiftStep c)

theorem shifts_xor : ∀ n (x y : BitVec 30), shifts n (x ^^^ y) = shifts n x ^^^ shifts n y
  | 0, _, _ => rfl
  | n + 1, x, y => by rw [shifts, shiftStep_xor, shifts_xor n]; rfl

theorem shifts_zero : ∀ n, shifts n 0 = 0
  | 0 => rfl
  | n + 1 => by rw [shifts, shiftStep_zero, shifts_zero n]

/-- The checksum splits into the part of the start value and the part of the values. -/
theorem polymod_split : ∀ (vs : List Nat) (c : BitVec 30),
    polymod c vs = shifts vs.length c ^^^ polymod 0 vs
  | [], c => by simp [polymod, shifts]
  | v :: vs, c => by
    have h1 : polymod c (v :: vs) = polymod (polyStep c v) vs := rfl
    have h2 : polymod 0 (v :: vs) = polymod (polyStep 0 v) vs := rfl
    rw [h1, h2, polymod_split vs (polyStep c v), polymod_split vs (polyStep 0 v), polyStep_eq,
      polyStep_eq, shiftStep_zero, shifts_xor, List.length_cons, shifts]
    rw [show (0 : BitVec 30) ^^^ BitVec.ofNat 30 v = BitVec.ofNat 30 v from BitVec.zero_xor ..]
    rw [BitVec.xor_assoc]

theorem polymod_append (c : BitVec 30) (a b : List Nat) :
    polymod c (a ++ b) = polymod (polymod c a) b := by
  unfold polymod; rw [List.foldl_append]

/-- A value with its five top bits clear is only shifted. -/
theorem polyStep_small {n v : Nat} (hn : n < 2 ^ 25) (hv : v < 32) :
    polyStep (BitVec.ofNat 30 n) v = BitVec.ofNat 30 (n * 32 + v) := by
  have hbit : ∀ i, 25 ≤ i → n.testBit i = false := fun i hi =>
    Nat.testBit_lt_two_pow (Nat.lt_of_lt_of_le hn (Nat.pow_le_pow_right (by decide) hi))
  have hg : generator (BitVec.ofNat 30 n) = 0 := by
    have hf : ∀ i, 25 ≤ i → (BitVec.ofNat 30 n).getLsbD i = false := fun i hi => by
      rw [BitVec.getLsbD_ofNat, hbit i hi, Bool.and_false]
    unfold generator
    rw [hf 25 (by decide), hf 26 (by decide), hf 27 (by decide), hf 28 (by decide),
      hf 29 (by decide)]
    rfl
  have ha : BitVec.ofNat 30 n &&& 0x1ffffff#30 = BitVec.ofNat 30 n := by
    apply BitVec.eq_of_toNat_eq
    rw [BitVec.toNat_and]
    simp only [BitVec.toNat_ofNat]
    rw [Nat.mod_eq_of_lt (show n < 2 ^ 30 from Nat.lt_of_lt_of_le hn (by decide))]
    rw [show (33554431 % 2 ^ 30 : Nat) = 2 ^ 25 - 1 from rfl, Nat.and_two_pow_sub_one_eq_mod,
      Nat.mod_eq_of_lt hn]
  unfold polyStep
  rw [hg, ha]
  apply BitVec.eq_of_getLsbD_eq
  intro i hi
  simp only [BitVec.getLsbD_xor, BitVec.getLsbD_shiftLeft, BitVec.getLsbD_ofNat]
  rw [show n * 32 + v = 2 ^ 5 * n + v from by omega, Nat.testBit_two_pow_mul_add _ hv]
  have hz : (0 : BitVec 30).getLsbD i = false := BitVec.getLsbD_zero
  rw [hz]
  by_cases h5 : i < 5
  · simp [h5, hi]
  · have : v.testBit i = false := Nat.testBit_lt_two_pow
      (Nat.lt_of_lt_of_le hv (show 2 ^ 5 ≤ 2 ^ i from Nat.pow_le_pow_right (by decide) (by omega)))
    simp [h5, hi, this, show i - 5 < 30 by omega]

/-- Six values on an empty checksum are just the number they write. -/
theorem polymod_six : ∀ (k : Nat) (vs : List Nat), vs.length = k → k ≤ 6 → (∀ v ∈ vs, v < 32) →
    polymod 0 vs = BitVec.ofNat 30 (value 32 vs)
  | 0, vs, hl, _, _ => by
    rw [List.length_eq_zero_iff.mp hl]; rfl
  | k + 1, vs, hl, hk, hv => by
    rcases snoc_cases vs with rfl | ⟨a, x, rfl⟩
    · cases hl
    · have ha : a.length = k := by simpa using hl
      have h1 := polymod_six k a ha (by omega) (fun d h => hv d (List.mem_append_left _ h))
      have h2 : x < 32 := hv x (List.mem_append_right _ (List.mem_singleton.mpr rfl))
      have h3 := value_lt k a ha (fun d h => hv d (List.mem_append_left _ h))
      have h4 : value 32 a < 2 ^ 25 := Nat.lt_of_lt_of_le h3 (by
        rw [pow_32]; exact Nat.pow_le_pow_right (by decide) (by omega))
      rw [polymod_append, h1, value_snoc]
      show polyStep _ x = _
      exact polyStep_small h4 h2

/-! ## The checksum values -/

/-- What the checksum has to make up for. -/
def gap (hrp : Str) (data : List Nat) : BitVec 30 :=
  shifts 6 (polymod 1#30 (hrpExpand hrp ++ data)) ^^^ 1#30

theorem polymod_zeros (c : BitVec 30) : polymod c [0, 0, 0, 0, 0, 0] = shifts 6 c := by
  rw [polymod_split]
  rw [show polymod 0 [0, 0, 0, 0, 0, 0] = 0 by decide +kernel]
  simp

theorem checksum_eq (hrp : Str) (data : List Nat) :
    checksum hrp data = digits 32 6 (gap hrp data).toNat := by
  unfold checksum
  have e : polymod 1#30 (hrpExpand hrp ++ (data ++ [0, 0, 0, 0, 0, 0])) ^^^ 1#30 = gap hrp data := by
    rw [← List.append_assoc, polymod_append, polymod_zeros]; rfl
  rw [e]
  simp only [digits, BitVec.toNat_ushiftRight, Nat.shiftRight_eq_div_pow, List.nil_append,
    List.cons_append, Nat.div_div_eq_div_mul]

theorem checksum_length (hrp : Str) (data : List Nat) : (checksum hrp data).length = 6 := rfl

theorem checksum_lt (hrp : Str) (data : List Nat) : ∀ v ∈ checksum hrp data, v < 32 := by
  rw [checksum_eq]; exact digits_lt (by decide) _ _

/-- The test of the reader, for the values of a string. -/
theorem check_iff (hrp : Str) (data chk : List Nat) (hl : chk.length = 6)
    (hc : ∀ v ∈ chk, v < 32) :
    polymod 1#30 (hrpExpand hrp ++ (data ++ chk)) = 1#30 ↔ chk = checksum hrp data := by
  rw [← List.append_assoc, polymod_append, polymod_split, hl,
    polymod_six 6 chk hl (Nat.le_refl _) hc, checksum_eq]
  have hlt : value 32 chk < 2 ^ 30 := by
    have := value_lt 6 chk hl hc
    rw [pow_32] at this; exact this
  constructor
  · intro h
    have : gap hrp data = BitVec.ofNat 30 (value 32 chk) := by
      unfold gap
      generalize shifts 6 (polymod 1#30 (hrpExpand hrp ++ data)) = c at h ⊢
      rw [← h, ← BitVec.xor_assoc, BitVec.xor_self, BitVec.zero_xor]
    rw [this, BitVec.toNat_ofNat, Nat.mod_eq_of_lt hlt]
    exact (digits_value 6 chk hl hc).symm
  · intro h
    have hv : value 32 chk = (gap hrp data).toNat := by
      rw [h, value_digits, pow_32]
      exact Nat.mod_eq_of_lt (gap hrp data).isLt
    rw [hv, BitVec.ofNat_toNat, BitVec.setWidth_eq]
    unfold gap
    rw [← BitVec.xor_assoc, BitVec.xor_self, BitVec.zero_xor]

end Addr
