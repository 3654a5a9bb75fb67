import Verif.VM.AnalysisLemmas
/-!
# Jump destinations (C63)

A jump is accepted exactly if its target is a `JUMPDEST` byte at the start of an instruction, not in the data of a push instruction.
-/
namespace VM

/-! ### Specification -/

/-- Number of data bytes behind an instruction: 1 to 32 for `PUSH1` to `PUSH32`, 0 for all others. -/
def dataLen (op : UInt8) : Nat := if 0x60 ≤ op.toNat ∧ op.toNat ≤ 0x7f then op.toNat - 0x5f else 0

/-- The positions where instructions start: 0, and behind each instruction and its data. -/
inductive Starts (code : List UInt8) : Nat → Prop
  | zero : Starts code 0
  | next {p : Nat} {op : UInt8} : Starts code p → code[p]? = some op → Starts code (p + 1 + dataLen op)

/-! ### Proof -/

/-- Between two neighbouring starts there is none. -/
theorem starts_gap {code : List UInt8} : ∀ (n p q : Nat), p + q ≤ n → Starts code p → Starts code q → p < q →
    ∀ op, code[p]? = some op → p + 1 + dataLen op ≤ q := by
  intro n
  induction n with
  | zero => intro p q h _ _ hlt; omega
  | succ n ih =>
    intro p q h hp hq hlt op hop
    cases hq with
    | zero => omega
    | next hq' hop' =>
      rename_i q' op'
      rcases Nat.lt_trichotomy p q' with h1 | h1 | h1
      · have := ih p q' (by omega) hp hq' h1 op hop
        omega
      · subst h1
        rw [hop] at hop'; cases hop'
        exact Nat.le_refl _
      · have := ih q' p (by omega) hq' hp h1 op' hop'
        omega

/-- The starts below a start and its data are those up to it. -/
theorem starts_below {code : List UInt8} {pc p : Nat} {op : UInt8} (h : Starts code pc) (hop : code[pc]? = some op) (hp : Starts code p)
    (hlt : p < pc + 1 + dataLen op) : p ≤ pc := by
  rcases Nat.lt_or_ge pc p with h1 | h1
  · have := starts_gap (p + pc) pc p (by omega) h hp h1 op hop
    omega
  · exact h1

/-- What the vector says about the bytes below `pc`. -/
def Known (code : List UInt8) (bits : List (BitVec 8)) (pc : Nat) : Prop := ∀ p, p < pc → (bit bits p = false ↔ Starts code p)

theorem known_next {code : List UInt8} {bits : List (BitVec 8)} {pc : Nat} (hs : Starts code pc) (hc : Clear bits pc) (hb : Known code bits pc) : Known code bits (pc + 1) := by
  intro p hp
  rcases Nat.lt_or_ge p pc with h | h
  · exact hb p h
  · have : p = pc := by omega
    subst this
    exact ⟨fun _ => hs, fun _ => hc p (Nat.le_refl _)⟩

theorem known_push {code : List UInt8} {bits b : List (BitVec 8)} {pc : Nat} {op : UInt8} (hs : Starts code pc) (hop : code[pc]? = some op)
    (hb : Known code bits (pc + 1)) (hm : Marked bits b (pc + 1) (dataLen op)) : Known code b (pc + 1 + dataLen op) := by
  intro p hp
  rw [hm.2]
  rcases Nat.lt_or_ge p (pc + 1) with h | h
  · rw [← hb p h, decide_eq_false (Nat.not_le.2 h), Bool.false_and, Bool.or_false]
  · rw [decide_eq_true h, decide_eq_true hp, Bool.and_self, Bool.or_true]
    constructor
    · intro h; cases h
    · intro hsp
      have := starts_below hs hop hsp hp
      omega

theorem dataLen_not {op : UInt8} (h : notPush op = true) : dataLen op = 0 := by
  have := (notPush_iff op).1 h
  unfold PUSH1 PUSH32 at this
  exact if_neg (by omega)

theorem dataLen_push {op : UInt8} (h : ¬ notPush op = true) : dataLen op = numbits op ∧ dataLen op ≤ 32 := by
  have hr : 0x60 ≤ op.toNat ∧ op.toNat ≤ 0x7f := by
    have : ¬ (op.toNat < PUSH1 ∨ PUSH32 < op.toNat) := fun h' => h ((notPush_iff op).2 h')
    unfold PUSH1 PUSH32 at this
    omega
  unfold dataLen numbits PUSH1
  rw [if_pos hr]
  omega

theorem bitmapLoop_spec {code : List UInt8} : ∀ (fuel pc : Nat) (bits : List (BitVec 8)), code.length ≤ pc + fuel → bits.length = code.length / 8 + 5 →
    Starts code pc → Clear bits pc → Known code bits pc →
    ∃ b, bitmapLoop fuel code bits pc = some b ∧ b.length = code.length / 8 + 5 ∧ Known code b code.length := by
  intro fuel
  induction fuel with
  | zero =>
    intro pc bits hf hl hs hc hb
    exact ⟨bits, rfl, hl, fun p hp => hb p (by omega)⟩
  | succ fuel ih =>
    intro pc bits hf hl hs hc hb
    unfold bitmapLoop
    cases hop : code[pc]? with
    | none =>
      rw [List.getElem?_eq_none_iff] at hop
      exact ⟨bits, rfl, hl, fun p hp => hb p (by omega)⟩
    | some op =>
      have hlt : pc < code.length := (List.getElem?_eq_some_iff.1 hop).1
      dsimp only
      have hnext := Starts.next hs hop
      have hc1 : Clear bits (pc + 1) := fun p hp => hc p (by omega)
      by_cases hnp : notPush op = true
      · rw [show mark bits pc op = some (bits, pc + 1) from if_pos hnp]
        rw [dataLen_not hnp] at hnext
        exact ih (pc + 1) bits (by omega) hl hnext hc1 (known_next hs hc hb)
      · obtain ⟨hd, hn32⟩ := dataLen_push hnp
        obtain ⟨b, hbm, hm⟩ := setPush_marks (bits := bits) (pc := pc + 1) (n := dataLen op) hn32 (by omega) hc1
        rw [hd] at hbm
        rw [show mark bits pc op = some (b, pc + 1 + numbits op) from (if_neg hnp).trans hbm, ← hd]
        exact ih _ b (by omega) (by rw [hm.1, hl]) hnext (hm.clear hc1) (known_push hs hop (known_next hs hc hb) hm)

theorem bit_replicate (n p : Nat) : bit (List.replicate n 0#8) p = false := by
  unfold bit
  rw [List.getElem?_replicate]
  split <;> simp

/-- The analysis never writes outside of its vector and marks exactly the bytes that are not starts of instructions. -/
theorem codeBitmap_spec (code : List UInt8) : ∃ b, codeBitmap code = some b ∧ b.length = code.length / 8 + 5 ∧
    ∀ p, p < code.length → (bit b p = false ↔ Starts code p) := by
  unfold codeBitmap
  refine bitmapLoop_spec code.length 0 _ (by omega) (by rw [List.length_replicate]) .zero (fun p _ => bit_replicate _ p) ?_
  intro p hp; omega

theorem bit_and_one (b : BitVec 8) (j : Nat) (hj : j < 8) : ((b >>> j) &&& 1#8 == 0#8) = !b.getLsbD j := by
  have : ∀ b : BitVec 8, ∀ j : Fin 8, ((b >>> j.val) &&& 1#8 == 0#8) = !b.getLsbD j.val := by
    intro b
    have h : ∀ n : Fin 256, ∀ j : Fin 8, ((BitVec.ofNat 8 n.val >>> j.val) &&& 1#8 == 0#8) = !(BitVec.ofNat 8 n.val).getLsbD j.val := by decide +kernel
    have := h ⟨b.toNat, b.isLt⟩
    simpa using this
  exact this b ⟨j, hj⟩

/-- Main theorem: for every code (shorter than 2^64 bytes) and every destination, a jump is accepted exactly if the destination is a `JUMPDEST` at the start
of an instruction; the check never panics. -/
theorem jump_accepted_iff (code : List UInt8) (hlen : code.length < 2 ^ 64) (dest : Nat) :
    ∃ ok, validJumpdest code dest = some ok ∧ (ok = true ↔ code[dest]? = some 0x5b ∧ Starts code dest) := by
  unfold validJumpdest
  by_cases hd : dest < code.length
  · rw [if_neg (by omega), List.getElem?_eq_getElem hd]
    dsimp only
    split
    · rename_i hne
      refine ⟨false, rfl, ?_⟩
      constructor
      · intro h; cases h
      · rintro ⟨h, _⟩
        injection h with h
        rw [h] at hne
        exact absurd rfl hne
    · rename_i he
      obtain ⟨b, hb, hl, hspec⟩ := codeBitmap_spec code
      rw [hb]
      dsimp only
      unfold codeSegment
      have hi : dest / 8 < b.length := by omega
      rw [List.getElem?_eq_getElem hi]
      refine ⟨_, rfl, ?_⟩
      rw [bit_and_one _ _ (by omega), bit_get hi _ (by omega), show 8 * (dest / 8) + dest % 8 = dest by omega, Bool.not_eq_true', hspec dest hd]
      have he : code[dest] = 0x5b := by
        have := Decidable.not_not.1 he
        exact UInt8.toNat_inj.1 this
      rw [he]
      exact ⟨fun h => ⟨rfl, h⟩, fun h => h.2⟩
  · refine ⟨false, if_pos (by omega), ?_⟩
    constructor
    · intro h; cases h
    · rintro ⟨h, _⟩
      have := (List.getElem?_eq_some_iff.1 h).1
      omega

/-- `PUSH2 0x5b 0x5b JUMPDEST PUSH17 … JUMPDEST`: destinations 3 and 22 only; a code that ends within push data. -/
example : (List.range 24).filter (fun d => validJumpdest ([0x61, 0x5b, 0x5b, 0x5b, 0x70] ++ List.replicate 17 0x5b ++ [0x5b]) d == some true) = [3, 22] := by decide +kernel
example : validJumpdest [0x7f, 0x5b] 1 = some false := by decide +kernel

end VM
