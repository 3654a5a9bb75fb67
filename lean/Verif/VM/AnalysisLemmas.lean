import Verif.VM.Analysis
/-! Lemmas for the jump destination analysis. -/
namespace VM

/-- One bit of the vector. -/
def bit (bits : List (BitVec 8)) (p : Nat) : Bool := (bits[p / 8]?.getD 0#8).getLsbD (p % 8)

theorem upd_some {bits : List (BitVec 8)} {i : Nat} (h : i < bits.length) (f : BitVec 8 → BitVec 8) :
    upd bits i f = some (bits.set i (f (bits[i]))) := by
  unfold upd
  rw [List.getElem?_eq_getElem h]

theorem bit_set {bits : List (BitVec 8)} {i : Nat} (h : i < bits.length) (v : BitVec 8) (p : Nat) :
    bit (bits.set i v) p = if p / 8 = i then v.getLsbD (p % 8) else bit bits p := by
  unfold bit
  by_cases he : p / 8 = i
  · rw [if_pos he, he, List.getElem?_set_self h]; rfl
  · rw [if_neg he, List.getElem?_set_ne (Ne.symm he)]

theorem bit_get {bits : List (BitVec 8)} {i : Nat} (h : i < bits.length) (j : Nat) (hj : j < 8) : bits[i].getLsbD j = bit bits (8 * i + j) := by
  unfold bit
  rw [show (8 * i + j) / 8 = i by omega, show (8 * i + j) % 8 = j by omega, List.getElem?_eq_getElem h]
  rfl

/-- All bits from `pc` are clear. -/
def Clear (bits : List (BitVec 8)) (pc : Nat) : Prop := ∀ p, pc ≤ p → bit bits p = false

/-- `bits'` is `bits` with the `n` bits from `pc` set. -/
def Marked (bits bits' : List (BitVec 8)) (pc n : Nat) : Prop :=
  bits'.length = bits.length ∧ ∀ p, bit bits' p = (bit bits p || (decide (pc ≤ p) && decide (p < pc + n)))

theorem Marked.clear {bits bits' : List (BitVec 8)} {pc n : Nat} (hc : Clear bits pc) (h : Marked bits bits' pc n) : Clear bits' (pc + n) := by
  intro p hp
  rw [h.2, hc p (by omega)]
  simp only [Bool.false_or, Bool.and_eq_false_iff, decide_eq_false_iff_not]
  omega

theorem Marked.trans {b b' b'' : List (BitVec 8)} {pc n m : Nat} (h : Marked b b' pc n) (h' : Marked b' b'' (pc + n) m) : Marked b b'' pc (n + m) := by
  refine ⟨h'.1.trans h.1, fun p => ?_⟩
  rw [h'.2, h.2, Bool.or_assoc]
  congr 1
  rw [Bool.eq_iff_iff]
  simp only [Bool.or_eq_true, Bool.and_eq_true, decide_eq_true_eq]
  omega

theorem Marked.refl (b : List (BitVec 8)) (pc : Nat) : Marked b b pc 0 := by
  refine ⟨rfl, fun p => ?_⟩
  have : (decide (pc ≤ p) && decide (p < pc + 0)) = false := by
    simp only [Bool.and_eq_false_iff, decide_eq_false_iff_not]; omega
  rw [this, Bool.or_false]

/-- The eight cases of a position within its byte. -/
theorem mod8_cases (n : Nat) : n % 8 = 0 ∨ n % 8 = 1 ∨ n % 8 = 2 ∨ n % 8 = 3 ∨ n % 8 = 4 ∨ n % 8 = 5 ∨ n % 8 = 6 ∨ n % 8 = 7 := by omega

/-- The bits of the first byte written: those at and above the position within the byte. -/
theorem ff_shift (s j : Nat) (hs : s < 8) (hj : j < 8) : (0xff#8 <<< s).getLsbD j = decide (s ≤ j) := by
  have : ∀ s : Fin 8, ∀ j : Fin 8, (0xff#8 <<< s.val).getLsbD j.val = decide (s.val ≤ j.val) := by decide +kernel
  exact this ⟨s, hs⟩ ⟨j, hj⟩

theorem not_ff_shift (s j : Nat) (hs : s < 8) (hj : j < 8) : (~~~(0xff#8 <<< s)).getLsbD j = decide (j < s) := by
  have : ∀ s : Fin 8, ∀ j : Fin 8, (~~~(0xff#8 <<< s.val)).getLsbD j.val = decide (j.val < s.val) := by decide +kernel
  exact this ⟨s, hs⟩ ⟨j, hj⟩

theorem one_shift (s j : Nat) (hs : s < 8) (hj : j < 8) : (1#8 <<< s).getLsbD j = decide (j = s) := by
  have : ∀ s : Fin 8, ∀ j : Fin 8, (1#8 <<< s.val).getLsbD j.val = decide (j.val = s.val) := by decide +kernel
  exact this ⟨s, hs⟩ ⟨j, hj⟩

theorem ff_bit (j : Nat) (hj : j < 8) : (0xff#8).getLsbD j = true := by
  have : ∀ j : Fin 8, (0xff#8).getLsbD j.val = true := by decide +kernel
  exact this ⟨j, hj⟩

/-- The mask of `n` ones. -/
def mask (n : Nat) : BitVec 16 := BitVec.ofNat 16 (2 ^ n - 1)

theorem mask_low (n s j : Nat) (hn : n < 8) (hs : s < 8) (hj : j < 8) : ((mask n <<< s).setWidth 8).getLsbD j = (decide (s ≤ j) && decide (j < s + n)) := by
  have : ∀ n : Fin 8, ∀ s : Fin 8, ∀ j : Fin 8, ((mask n.val <<< s.val).setWidth 8).getLsbD j.val = (decide (s.val ≤ j.val) && decide (j.val < s.val + n.val)) := by
    decide +kernel
  exact this ⟨n, hn⟩ ⟨s, hs⟩ ⟨j, hj⟩

theorem mask_high (n s j : Nat) (hn : n < 8) (hs : s < 8) (hj : j < 8) : (((mask n <<< s) >>> 8).setWidth 8).getLsbD j = decide (j + 8 < s + n) := by
  have : ∀ n : Fin 8, ∀ s : Fin 8, ∀ j : Fin 8, (((mask n.val <<< s.val) >>> 8).setWidth 8).getLsbD j.val = decide (j.val + 8 < s.val + n.val) := by
    decide +kernel
  exact this ⟨n, hn⟩ ⟨s, hs⟩ ⟨j, hj⟩

theorem mask_high_zero (n s : Nat) (hn : n < 8) (hs : s < 8) : ((mask n <<< s) >>> 8).setWidth 8 = 0#8 ↔ s + n ≤ 8 := by
  have : ∀ n : Fin 8, ∀ s : Fin 8, ((mask n.val <<< s.val) >>> 8).setWidth 8 = 0#8 ↔ s.val + n.val ≤ 8 := by
    decide +kernel
  exact this ⟨n, hn⟩ ⟨s, hs⟩

theorem set1_marks {bits : List (BitVec 8)} {pc : Nat} (h : pc / 8 < bits.length) : ∃ b, set1 bits pc = some b ∧ Marked bits b pc 1 := by
  unfold set1
  rw [upd_some h]
  refine ⟨_, rfl, List.length_set, fun p => ?_⟩
  rw [bit_set h]
  split
  · rename_i he
    rw [BitVec.getLsbD_or, bit_get h _ (by omega), one_shift _ _ (by omega) (by omega), show 8 * (pc / 8) + p % 8 = p by omega]
    congr 1
    rw [Bool.eq_iff_iff]
    simp only [Bool.and_eq_true, decide_eq_true_eq]
    omega
  · have : (decide (pc ≤ p) && decide (p < pc + 1)) = false := by
      simp only [Bool.and_eq_false_iff, decide_eq_false_iff_not]
      by_cases h1 : pc = p
      · subst h1; exact absurd rfl ‹_›
      · omega
    rw [this, Bool.or_false]

theorem setN_marks {bits : List (BitVec 8)} {pc n : Nat} (hn : n < 8) (h : pc / 8 + 1 < bits.length) (hc : Clear bits pc) :
    ∃ b, setN bits (mask n) pc = some b ∧ Marked bits b pc n := by
  unfold setN
  rw [upd_some (show pc / 8 < bits.length by omega)]
  dsimp only
  have hlow : ∀ p, bit (bits.set (pc / 8) (bits[pc / 8]'(by omega) ||| (mask n <<< (pc % 8)).setWidth 8)) p =
      (bit bits p || (decide (p / 8 = pc / 8) && (decide (pc ≤ p) && decide (p < pc + n)))) := by
    intro p
    rw [bit_set (by omega)]
    split
    · rename_i he
      rw [BitVec.getLsbD_or, bit_get _ _ (by omega), mask_low _ _ _ hn (by omega) (by omega), show 8 * (pc / 8) + p % 8 = p by omega]
      congr 1
      rw [Bool.eq_iff_iff]
      simp only [Bool.and_eq_true, decide_eq_true_eq]
      omega
    · rename_i he
      rw [decide_eq_false he, Bool.false_and, Bool.or_false]
  split
  · rename_i hz
    rw [upd_some (by rw [List.length_set]; omega)]
    refine ⟨_, rfl, by rw [List.length_set, List.length_set], fun p => ?_⟩
    rw [bit_set (by rw [List.length_set]; omega)]
    split
    · rename_i he
      rw [mask_high _ _ _ hn (by omega) (by omega), hc p (by omega), Bool.false_or, Bool.eq_iff_iff]
      simp only [Bool.and_eq_true, decide_eq_true_eq]
      omega
    · rename_i he
      rw [hlow]
      congr 1
      rw [Bool.eq_iff_iff]
      simp only [Bool.and_eq_true, decide_eq_true_eq]
      omega
  · rename_i hz
    have hz := (mask_high_zero n (pc % 8) hn (by omega)).1 (Decidable.not_not.1 hz)
    refine ⟨_, rfl, List.length_set, fun p => ?_⟩
    rw [hlow]
    congr 1
    rw [Bool.eq_iff_iff]
    simp only [Bool.and_eq_true, decide_eq_true_eq]
    omega

theorem ff_set {bits : List (BitVec 8)} {pc : Nat} (h : pc / 8 < bits.length) (p : Nat) :
    bit (bits.set (pc / 8) (bits[pc / 8] ||| (0xff#8 <<< (pc % 8)))) p = (bit bits p || (decide (p / 8 = pc / 8) && decide (pc ≤ p))) := by
  rw [bit_set h]
  split
  · rename_i he
    rw [BitVec.getLsbD_or, bit_get _ _ (by omega), ff_shift _ _ (by omega) (by omega), show 8 * (pc / 8) + p % 8 = p by omega]
    congr 1
    rw [Bool.eq_iff_iff]
    simp only [Bool.and_eq_true, decide_eq_true_eq]
    omega
  · rename_i he
    rw [decide_eq_false he, Bool.false_and, Bool.or_false]

theorem set8_marks {bits : List (BitVec 8)} {pc : Nat} (h : pc / 8 + 1 < bits.length) (hc : Clear bits pc) :
    ∃ b, set8 bits pc = some b ∧ Marked bits b pc 8 := by
  unfold set8
  rw [upd_some (show pc / 8 < bits.length by omega)]
  dsimp only
  rw [upd_some (by rw [List.length_set]; omega)]
  refine ⟨_, rfl, by rw [List.length_set, List.length_set], fun p => ?_⟩
  rw [bit_set (by rw [List.length_set]; omega)]
  split
  · rename_i he
    rw [not_ff_shift _ _ (by omega) (by omega), hc p (by omega), Bool.false_or, Bool.eq_iff_iff]
    simp only [Bool.and_eq_true, decide_eq_true_eq]
    omega
  · rename_i he
    rw [ff_set (by omega)]
    congr 1
    rw [Bool.eq_iff_iff]
    simp only [Bool.and_eq_true, decide_eq_true_eq]
    omega

theorem set16_marks {bits : List (BitVec 8)} {pc : Nat} (h : pc / 8 + 2 < bits.length) (hc : Clear bits pc) :
    ∃ b, set16 bits pc = some b ∧ Marked bits b pc 16 := by
  unfold set16
  rw [upd_some (show pc / 8 < bits.length by omega)]
  dsimp only
  rw [upd_some (by rw [List.length_set]; omega)]
  dsimp only
  rw [upd_some (by rw [List.length_set, List.length_set]; omega)]
  refine ⟨_, rfl, by rw [List.length_set, List.length_set, List.length_set], fun p => ?_⟩
  rw [bit_set (by rw [List.length_set, List.length_set]; omega)]
  split
  · rename_i he
    rw [not_ff_shift _ _ (by omega) (by omega), hc p (by omega), Bool.false_or, Bool.eq_iff_iff]
    simp only [Bool.and_eq_true, decide_eq_true_eq]
    omega
  · rename_i he
    rw [bit_set (by rw [List.length_set]; omega)]
    split
    · rename_i he2
      rw [ff_bit _ (by omega), hc p (by omega), Bool.false_or, Bool.eq_iff_iff]
      simp only [Bool.and_eq_true, decide_eq_true_eq]
      exact ⟨fun _ => ⟨by omega, by omega⟩, fun _ => trivial⟩
    · rw [ff_set (by omega)]
      congr 1
      rw [Bool.eq_iff_iff]
      simp only [Bool.and_eq_true, decide_eq_true_eq]
      omega

theorem set16s_marks : ∀ (fuel n : Nat) (bits : List (BitVec 8)) (pc : Nat), n ≤ fuel → pc / 8 + n / 8 < bits.length → Clear bits pc →
    ∃ b m, set16s fuel bits pc n = some (b, pc + m, n - m) ∧ Marked bits b pc m ∧ m ≤ n ∧ n - m < 16 ∧ m % 16 = 0 := by
  intro fuel
  induction fuel with
  | zero => intro n bits pc hf _ _; exact ⟨bits, 0, rfl, Marked.refl _ _, by omega, by omega, by omega⟩
  | succ fuel ih =>
    intro n bits pc hf hl hc
    unfold set16s
    split
    · rename_i h16
      obtain ⟨b, hb, hm⟩ := set16_marks (bits := bits) (pc := pc) (by omega) hc
      rw [hb]
      dsimp only
      obtain ⟨b', m, hb', hm', h1, h2, h3⟩ := ih (n - 16) b (pc + 16) (by omega) (by rw [hm.1]; omega) (hm.clear hc)
      refine ⟨b', 16 + m, ?_, hm.trans hm', by omega, by omega, by omega⟩
      rw [hb', show pc + 16 + m = pc + (16 + m) by omega, show n - 16 - m = n - (16 + m) by omega]
    · exact ⟨bits, 0, rfl, Marked.refl _ _, by omega, by omega, by omega⟩

theorem set8s_marks : ∀ (fuel n : Nat) (bits : List (BitVec 8)) (pc : Nat), n ≤ fuel → pc / 8 + n / 8 < bits.length → Clear bits pc →
    ∃ b m, set8s fuel bits pc n = some (b, pc + m, n - m) ∧ Marked bits b pc m ∧ m ≤ n ∧ n - m < 8 ∧ m % 8 = 0 := by
  intro fuel
  induction fuel with
  | zero => intro n bits pc hf _ _; exact ⟨bits, 0, rfl, Marked.refl _ _, by omega, by omega, by omega⟩
  | succ fuel ih =>
    intro n bits pc hf hl hc
    unfold set8s
    split
    · rename_i h16
      obtain ⟨b, hb, hm⟩ := set8_marks (bits := bits) (pc := pc) (by omega) hc
      rw [hb]
      dsimp only
      obtain ⟨b', m, hb', hm', h1, h2, h3⟩ := ih (n - 8) b (pc + 8) (by omega) (by rw [hm.1]; omega) (hm.clear hc)
      refine ⟨b', 8 + m, ?_, hm.trans hm', by omega, by omega, by omega⟩
      rw [hb', show pc + 8 + m = pc + (8 + m) by omega, show n - 8 - m = n - (8 + m) by omega]
    · exact ⟨bits, 0, rfl, Marked.refl _ _, by omega, by omega, by omega⟩

theorem setRest_marks {bits : List (BitVec 8)} {pc n : Nat} (hn : n < 8) (h : n ≠ 0 → pc / 8 + 1 < bits.length) (hc : Clear bits pc) :
    ∃ b, setRest bits pc n = some b ∧ Marked bits b pc n := by
  match n, hn with
  | 0, _ => exact ⟨bits, rfl, Marked.refl _ _⟩
  | 1, _ => exact set1_marks (by have := h (by omega); omega)
  | 2, _ => exact setN_marks (n := 2) (by omega) (h (by omega)) hc
  | 3, _ => exact setN_marks (n := 3) (by omega) (h (by omega)) hc
  | 4, _ => exact setN_marks (n := 4) (by omega) (h (by omega)) hc
  | 5, _ => exact setN_marks (n := 5) (by omega) (h (by omega)) hc
  | 6, _ => exact setN_marks (n := 6) (by omega) (h (by omega)) hc
  | 7, _ => exact setN_marks (n := 7) (by omega) (h (by omega)) hc
  | n + 8, h => omega

theorem setPush_marks {bits : List (BitVec 8)} {pc n : Nat} (hn : n ≤ 32) (h : pc / 8 + 4 < bits.length) (hc : Clear bits pc) :
    ∃ b, setPush bits pc n = some (b, pc + n) ∧ Marked bits b pc n := by
  unfold setPush
  obtain ⟨b, m, hb, hm, h1, h2, h3⟩ := set16s_marks n n bits pc (Nat.le_refl _) (by omega) hc
  rw [hb]
  dsimp only
  obtain ⟨b', m', hb', hm', h1', h2', h3'⟩ := set8s_marks (n - m) (n - m) b (pc + m) (Nat.le_refl _) (by rw [hm.1]; omega) (hm.clear hc)
  rw [hb']
  dsimp only
  obtain ⟨b'', hb'', hm''⟩ := setRest_marks (bits := b') (pc := pc + m + m') (n := n - m - m') h2' (by intro h0; rw [hm'.1, hm.1]; omega) (hm'.clear (hm.clear hc))
  rw [hb'']
  dsimp only
  have := (hm.trans hm').trans (pc := pc) (n := m + m') (m := n - m - m') (by rw [← Nat.add_assoc]; exact hm'')
  refine ⟨b'', ?_, ?_⟩
  · rw [show pc + m + m' + (n - m - m') = pc + n by omega]
  · rw [show m + m' + (n - m - m') = n by omega] at this; exact this

theorem notPush_iff (op : UInt8) : notPush op = true ↔ op.toNat < PUSH1 ∨ PUSH32 < op.toNat := by
  have : ∀ n : Fin 256, decide ((BitVec.ofNat 8 n.val).toInt < (BitVec.ofNat 8 PUSH1).toInt) = true ↔ n.val < PUSH1 ∨ PUSH32 < n.val := by decide +kernel
  exact this ⟨op.toNat, op.toNat_lt⟩

end VM
