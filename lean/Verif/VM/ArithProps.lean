import Verif.VM.Interp
/-!
# What the instructions compute (C72)

The pure instructions against their definition on integers: words as naturals below `2^256`, or as integers in two's complement for the signed ones.
-/
namespace VM

/-! ### Specification -/

/-- The word of a number, modulo `2^256`. -/
def wordN (n : Nat) : Word := BitVec.ofNat 256 n
def wordZ (z : Int) : Word := BitVec.ofInt 256 z

def specUn : UnOp → Word → Word
  | .not, x => wordN (2 ^ 256 - 1 - x.toNat)
  | .iszero, x => wordN (if x.toNat = 0 then 1 else 0)

/-- The binary instructions; the first argument is the top of the stack. -/
def specBin : BinOp → Word → Word → Word
  | .add, x, y => wordN (x.toNat + y.toNat)
  | .sub, x, y => wordZ (x.toNat - y.toNat)
  | .mul, x, y => wordN (x.toNat * y.toNat)
  | .div, x, y => if y.toNat = 0 then wordN 0 else wordN (x.toNat / y.toNat)
  | .sdiv, x, y => if y.toInt = 0 then wordN 0 else wordZ (x.toInt.tdiv y.toInt)
  | .mod, x, y => if y.toNat = 0 then wordN 0 else wordN (x.toNat % y.toNat)
  | .smod, x, y => if y.toInt = 0 then wordN 0 else wordZ (x.toInt.tmod y.toInt)
  | .signextend, x, y => if x.toNat < 31 then wordZ (Int.bmod y.toNat (2 ^ (8 * (x.toNat + 1)))) else y
  | .lt, x, y => wordN (if x.toNat < y.toNat then 1 else 0)
  | .gt, x, y => wordN (if x.toNat > y.toNat then 1 else 0)
  | .slt, x, y => wordN (if x.toInt < y.toInt then 1 else 0)
  | .sgt, x, y => wordN (if x.toInt > y.toInt then 1 else 0)
  | .eq, x, y => wordN (if x.toNat = y.toNat then 1 else 0)
  | .and, x, y => wordN (x.toNat &&& y.toNat)
  | .or, x, y => wordN (x.toNat ||| y.toNat)
  | .xor, x, y => wordN (x.toNat ^^^ y.toNat)
  | .byte, x, y => if x.toNat < 32 then wordN (y.toNat / 256 ^ (31 - x.toNat) % 256) else wordN 0
  | .shl, x, y => wordN (y.toNat * 2 ^ x.toNat)
  | .shr, x, y => wordN (y.toNat / 2 ^ x.toNat)
  | .sar, x, y => wordZ (y.toInt / 2 ^ x.toNat)

def specTern : TernOp → Word → Word → Word → Word
  | .addmod, x, y, z => if z.toNat = 0 then wordN 0 else wordN ((x.toNat + y.toNat) % z.toNat)
  | .mulmod, x, y, z => if z.toNat = 0 then wordN 0 else wordN ((x.toNat * y.toNat) % z.toNat)

def specExp (x y : Word) : Word := wordN (x.toNat ^ y.toNat)

/-! ### Proof -/

theorem ofBool_decide (p : Prop) [Decidable p] : ofBool (decide p) = wordN (if p then 1 else 0) := by
  unfold ofBool wordN
  by_cases h : p
  · simp [h]
  · simp [h]

theorem wordN_toNat (x : Word) : wordN x.toNat = x := by
  apply BitVec.eq_of_toNat_eq
  unfold wordN
  rw [BitVec.toNat_ofNat, Nat.mod_eq_of_lt x.isLt]
theorem wordZ_toInt (x : Word) : wordZ x.toInt = x := BitVec.ofInt_toInt

theorem zero_iff (x : Word) : x = 0#256 ↔ x.toNat = 0 := by
  constructor
  · intro h; rw [h]; rfl
  · intro h; exact BitVec.eq_of_toNat_eq h

theorem zero_iff_int (x : Word) : x = 0#256 ↔ x.toInt = 0 := by
  constructor
  · intro h; rw [h]; rfl
  · intro h; exact BitVec.eq_of_toInt_eq h

theorem wordZ_bmod (z : Int) : wordZ (z.bmod (2 ^ 256)) = wordZ z := by
  unfold wordZ
  apply BitVec.eq_of_toInt_eq
  rw [BitVec.toInt_ofInt, BitVec.toInt_ofInt, Int.bmod_bmod]

theorem of_toInt {x : Word} {z : Int} (h : x.toInt = z) : x = wordZ z := by
  rw [← h, wordZ_toInt]
theorem of_toNat {x : Word} {n : Nat} (h : x.toNat = n % 2 ^ 256) : x = wordN n := by
  apply BitVec.eq_of_toNat_eq
  rw [h]
  unfold wordN
  rw [BitVec.toNat_ofNat]

/-! ### Theorems -/

theorem unOp_correct (o : UnOp) (x : Word) : unOp o x = specUn o x := by
  cases o with
  | not =>
    apply of_toNat
    show (~~~x).toNat = _
    rw [BitVec.toNat_not, Nat.mod_eq_of_lt]
    omega
  | iszero =>
    show ofBool (x == 0#256) = _
    rw [show (x == 0#256) = decide (x.toNat = 0) by rw [Bool.eq_iff_iff, beq_iff_eq, decide_eq_true_iff]; exact zero_iff x]
    exact ofBool_decide _

theorem toNat_small {x y n : Nat} (hx : x < 2 ^ 256) (h : y ≤ x) (e : n = y) : n = y % 2 ^ 256 := by
  rw [e, Nat.mod_eq_of_lt (Nat.lt_of_le_of_lt h hx)]

theorem binOp_correct (o : BinOp) (x y : Word) : binOp o x y = specBin o x y := by
  cases o with
  | add => exact of_toNat (BitVec.toNat_add x y)
  | sub =>
    show x - y = wordZ _
    rw [← wordZ_bmod]
    apply of_toInt
    rw [BitVec.toInt_sub, BitVec.toInt_eq_toNat_bmod, BitVec.toInt_eq_toNat_bmod, Int.bmod_sub_bmod, Int.sub_bmod_bmod]
  | mul => exact of_toNat (BitVec.toNat_mul x y)
  | div =>
    show (if y = 0#256 then _ else _) = _
    unfold specBin
    simp only [zero_iff y]
    split
    · rfl
    · exact of_toNat (toNat_small x.isLt (Nat.div_le_self _ _) BitVec.toNat_udiv)
  | sdiv =>
    show (if y = 0#256 then _ else _) = _
    unfold specBin
    simp only [zero_iff_int y]
    split
    · rfl
    · rw [← wordZ_bmod]
      exact of_toInt (BitVec.toInt_sdiv x y)
  | mod =>
    show (if y = 0#256 then _ else _) = _
    unfold specBin
    simp only [zero_iff y]
    split
    · rfl
    · exact of_toNat (toNat_small x.isLt (Nat.mod_le _ _) BitVec.toNat_umod)
  | smod =>
    show (if y = 0#256 then _ else _) = _
    unfold specBin
    simp only [zero_iff_int y]
    split
    · rfl
    · exact of_toInt (BitVec.toInt_srem x y)
  | signextend =>
    show signExtend x y = _
    unfold signExtend specBin
    dsimp only
    by_cases h : x.toNat < 31
    · rw [if_neg (by omega), if_pos h]
      apply of_toInt
      rw [BitVec.toInt_signExtend_of_le (by omega), BitVec.toInt_setWidth]
    · rw [if_pos (by omega), if_neg h]
  | lt => exact ofBool_decide _
  | gt => exact ofBool_decide _
  | slt => exact ofBool_decide _
  | sgt => exact ofBool_decide _
  | eq =>
    show ofBool (x == y) = _
    rw [show (x == y) = decide (x.toNat = y.toNat) by rw [Bool.eq_iff_iff, beq_iff_eq, decide_eq_true_iff]; exact BitVec.toNat_inj.symm]
    exact ofBool_decide _
  | and => exact of_toNat (toNat_small x.isLt Nat.and_le_left (BitVec.toNat_and x y))
  | or =>
    refine of_toNat ?_
    rw [Nat.mod_eq_of_lt (Nat.or_lt_two_pow x.isLt y.isLt)]
    exact BitVec.toNat_or x y
  | xor =>
    refine of_toNat ?_
    rw [Nat.mod_eq_of_lt (Nat.xor_lt_two_pow x.isLt y.isLt)]
    exact BitVec.toNat_xor x y
  | byte =>
    show (if x.toNat < 32 then _ else _) = _
    unfold specBin
    dsimp only
    split
    · refine of_toNat ?_
      rw [BitVec.toNat_and, BitVec.toNat_ushiftRight, Nat.shiftRight_eq_div_pow, show (0xff#256).toNat = 2 ^ 8 - 1 from rfl, Nat.and_two_pow_sub_one_eq_mod,
        Nat.pow_mul, show (2 : Nat) ^ 8 = 256 from rfl]
      rw [Nat.mod_eq_of_lt (b := 2 ^ 256)]
      exact Nat.lt_trans (Nat.mod_lt _ (by decide)) (by decide)
    · rfl
  | shl =>
    show (if x.toNat < 256 then _ else _) = _
    unfold specBin
    dsimp only
    split
    · refine of_toNat ?_
      rw [BitVec.toNat_shiftLeft, Nat.shiftLeft_eq]
    · refine of_toNat ?_
      rename_i h
      rw [show x.toNat = 256 + (x.toNat - 256) by omega, Nat.pow_add, ← Nat.mul_assoc, Nat.mul_assoc, Nat.mul_left_comm, Nat.mul_mod_right]
      rfl
  | shr =>
    show (if x.toNat < 256 then _ else _) = _
    unfold specBin
    dsimp only
    split
    · refine of_toNat ?_
      rw [BitVec.toNat_ushiftRight, Nat.shiftRight_eq_div_pow]
      exact toNat_small y.isLt (Nat.div_le_self _ _) rfl
    · rename_i h
      rw [Nat.div_eq_of_lt]
      · rfl
      · exact Nat.lt_of_lt_of_le y.isLt (Nat.pow_le_pow_right (by decide) (by omega))
  | sar =>
    show (if x.toNat > 256 then _ else _) = _
    unfold specBin
    dsimp only
    have hlt : y.toInt < 2 ^ 255 := BitVec.toInt_lt
    have hge : -(2 ^ 255) ≤ y.toInt := BitVec.le_toInt y
    split
    · rename_i h
      have hbig : (2 : Int) ^ 255 ≤ 2 ^ x.toNat := by
        have : (2 : Nat) ^ 255 ≤ 2 ^ x.toNat := Nat.pow_le_pow_right (by decide) (by omega)
        exact_mod_cast this
      rw [BitVec.slt_eq_decide]
      generalize (2 : Int) ^ x.toNat = p at hbig
      generalize (2 : Int) ^ 255 = q at *
      split
      · rename_i hs
        have hs : y.toInt < 0 := of_decide_eq_true hs
        rw [show y.toInt / p = -1 from ?_]
        · rfl
        · have hp : 0 < p := by omega
          have h1 : y.toInt / p < 0 := Int.ediv_neg_of_neg_of_pos hs hp
          have h2 : -1 ≤ y.toInt / p := by rw [Int.le_ediv_iff_mul_le hp]; omega
          omega
      · rename_i hs
        have hs : ¬ y.toInt < 0 := fun h => hs (decide_eq_true h)
        rw [Int.ediv_eq_zero_of_lt (by omega) (by omega)]
        rfl
    · apply of_toInt
      rw [BitVec.toInt_sshiftRight, Int.shiftRight_eq_div_pow]
      norm_cast

theorem ternOp_correct (o : TernOp) (x y z : Word) : ternOp o x y z = specTern o x y z := by
  cases o with
  | addmod =>
    show (if z = 0#256 then _ else _) = _
    unfold specTern
    simp only [zero_iff z]
    split <;> rfl
  | mulmod =>
    show (if z = 0#256 then _ else _) = _
    unfold specTern
    simp only [zero_iff z]
    split <;> rfl

theorem toNat_pow (b : Word) (k : Nat) : (b ^ k) = wordN (b.toNat ^ k) := by
  induction k with
  | zero => rfl
  | succ k ih =>
    rw [BitVec.pow_succ, ih]
    apply of_toNat
    rw [BitVec.toNat_mul]
    unfold wordN
    rw [BitVec.toNat_ofNat, Nat.mod_mul_mod, Nat.pow_succ b.toNat]

theorem powLoop_correct : ∀ (fuel : Nat) (b : Word) (e : Nat), e < 2 ^ fuel → powLoop fuel b e = b ^ e := by
  intro fuel
  induction fuel with
  | zero =>
    intro b e he
    have : e = 0 := by omega
    subst this
    rfl
  | succ fuel ih =>
    intro b e he
    have hsq : ∀ k, (b * b) ^ k = b ^ (2 * k) := by
      intro k
      induction k with
      | zero => rfl
      | succ k ihk => rw [BitVec.pow_succ, ihk, show 2 * (k + 1) = 2 * k + 1 + 1 by omega, BitVec.pow_succ, BitVec.pow_succ, BitVec.mul_assoc]
    unfold powLoop
    have h2 : e / 2 < 2 ^ fuel := by rw [Nat.pow_succ] at he; omega
    split
    · rename_i h; rw [h]; rfl
    · split
      · rename_i h
        rw [ih _ _ h2, hsq, BitVec.mul_comm, ← BitVec.pow_succ]
        congr 1
        omega
      · rw [ih _ _ h2, hsq]
        congr 1
        omega

theorem expOp_correct (x y : Word) : expOp x y = specExp x y := by
  unfold expOp specExp
  rw [powLoop_correct 256 x y.toNat y.isLt, toNat_pow]

/-! ### Examples -/

example : binOp .sdiv (wordZ (-7)) (wordZ 2) = wordZ (-3) := by decide +kernel
example : binOp .smod (wordZ (-7)) (wordZ 3) = wordZ (-1) := by decide +kernel
example : binOp .sdiv (wordZ (-(2 ^ 255))) (wordZ (-1)) = wordZ (2 ^ 255) := by decide +kernel
example : binOp .signextend (wordN 0) (wordN 0x1ff) = wordZ (-1) := by decide +kernel
example : binOp .sar (wordN 1) (wordZ (-3)) = wordZ (-2) := by decide +kernel
example : binOp .byte (wordN 31) (wordN 0x1234) = wordN 0x34 := by decide +kernel
example : expOp (wordN 3) (wordN 200) = wordN (3 ^ 200) := by decide +kernel

end VM
