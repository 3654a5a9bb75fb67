import Verif.VM.SafetyProps
import Verif.VM.ArithProps
/-! # Memory as an unbounded row of bytes: lemmas -/
namespace VM

/-- Data as an unbounded row of bytes, zero behind its end. -/
def byteAt (d : List UInt8) (i : Nat) : UInt8 := d[i]?.getD 0

/-- A piece of such a row. -/
def piece (f : Nat → UInt8) (off len : Nat) : List UInt8 := (List.range len).map (fun j => f (off + j))

/-- The word with these big-endian bytes. -/
def wordOf (bytes : List UInt8) : Word := wordN (bytes.foldl (fun n b => n * 256 + b.toNat) 0)

/-- The bytes of a word, the most significant first. -/
def byteOf (v : Word) (j : Nat) : UInt8 := UInt8.ofNat (v.toNat / 256 ^ (31 - j))

theorem piece_length (f : Nat → UInt8) (off len : Nat) : (piece f off len).length = len := by
  unfold piece
  rw [List.length_map, List.length_range]

theorem piece_getElem? (f : Nat → UInt8) (off len i : Nat) : (piece f off len)[i]? = if i < len then some (f (off + i)) else none := by
  unfold piece
  rw [List.getElem?_map]
  by_cases h : i < len
  · rw [if_pos h, List.getElem?_range h]; rfl
  · rw [if_neg h, List.getElem?_eq_none_iff.2 (by rw [List.length_range]; omega)]; rfl

theorem piece_congr {f g : Nat → UInt8} {off len : Nat} (h : ∀ i, f i = g i) : piece f off len = piece g off len := by
  unfold piece
  simp only [h]

theorem byteAt_piece (f : Nat → UInt8) (off len i : Nat) : byteAt (piece f off len) i = if i < len then f (off + i) else 0 := by
  unfold byteAt
  rw [piece_getElem?]
  split <;> rfl

theorem take_drop_piece {d : List UInt8} {off len : Nat} (h : off + len ≤ d.length) : (d.drop off).take len = piece (byteAt d) off len := by
  apply List.ext_getElem?
  intro i
  rw [piece_getElem?, List.getElem?_take, List.getElem?_drop]
  split
  · unfold byteAt
    rw [List.getElem?_eq_getElem (by omega)]
    rfl
  · rfl

theorem getData_piece (d : List UInt8) (off len : Nat) : getData d off len = piece (byteAt d) off len := by
  apply List.ext_getElem?
  intro i
  unfold getData
  dsimp only
  rw [piece_getElem?, List.getElem?_append, List.getElem?_take, List.getElem?_drop]
  have hl : ((d.drop off).take len).length = min len (d.length - off) := by rw [List.length_take, List.length_drop]
  rw [hl]
  by_cases h : i < min len (d.length - off)
  · rw [if_pos h, if_pos (by omega), if_pos (by omega)]
    unfold byteAt
    rw [List.getElem?_eq_getElem (by omega)]
    rfl
  · rw [if_neg h, List.getElem?_replicate]
    by_cases h2 : i < len
    · rw [if_pos (by omega), if_pos h2]
      unfold byteAt
      rw [List.getElem?_eq_none_iff.2 (by omega)]
      rfl
    · rw [if_neg (by omega), if_neg h2]

theorem byteAt_resize (d : List UInt8) (size i : Nat) : byteAt (resize d size) i = byteAt d i := by
  unfold byteAt resize
  rw [List.getElem?_append]
  split
  · rfl
  · rw [List.getElem?_replicate, List.getElem?_eq_none_iff.2 (by omega)]
    split <;> rfl

theorem calcLen_cases {o : Word} {len n : Nat} (hl : len < 2 ^ 64) (h : calcMemSizeLen o len = some n) :
    len = 0 ∨ (low64 o = o.toNat ∧ n = o.toNat + len) := by
  have h64 : (2 : Nat) ^ 64 = 18446744073709551616 := by decide
  unfold calcMemSizeLen add64 at h
  unfold low64
  rw [h64] at *
  split at h
  · left; assumption
  · split at h
    · cases h
    · split at h
      · cases h
      · cases h
        right
        omega

theorem memGet_piece {R : List UInt8} {o : Word} {len n : Nat} (hl : len < 2 ^ 64) (h : calcMemSizeLen o len = some n) (hn : n ≤ R.length) (hb : R.length ≤ 0x1FFFFFFFE0) :
    memGet R (low64 o) len = some (piece (byteAt R) o.toNat len) := by
  have h63 : (2 : Nat) ^ 63 = 9223372036854775808 := by decide
  unfold memGet
  rcases calcLen_cases hl h with e | ⟨e1, e2⟩
  · rw [if_pos e, e]; rfl
  · by_cases hz : len = 0
    · rw [if_pos hz, hz]; rfl
    · rw [if_neg hz, e1, if_neg (by rw [h63]; omega), if_pos (by omega), if_pos (by omega), take_drop_piece (by omega)]

theorem memSet_bytes {R value : List UInt8} {o : Word} {len n : Nat} (hl : len < 2 ^ 64) (h : calcMemSizeLen o len = some n) (hn : n ≤ R.length) (hv : value.length = len) :
    ∃ R', memSet R (low64 o) len value = some R' ∧ ∀ i, byteAt R' i = if o.toNat ≤ i ∧ i < o.toNat + len then byteAt value (i - o.toNat) else byteAt R i := by
  unfold memSet
  rcases calcLen_cases hl h with e | ⟨e1, e2⟩
  · rw [if_pos e]
    refine ⟨R, rfl, ?_⟩
    intro i
    rw [if_neg (by omega)]
  · by_cases hz : len = 0
    · rw [if_pos hz]
      refine ⟨R, rfl, ?_⟩
      intro i
      rw [if_neg (by omega)]
    · rw [if_neg hz, e1, if_neg (by omega)]
      refine ⟨_, rfl, ?_⟩
      intro i
      have ht : value.take len = value := List.take_of_length_le (by omega)
      rw [ht]
      unfold byteAt
      rw [List.getElem?_append, List.getElem?_append, List.length_append, List.length_take, hv, Nat.min_eq_left (by omega), List.getElem?_take, List.getElem?_drop]
      by_cases h1 : i < o.toNat
      · rw [if_pos (by omega), if_pos h1, if_pos h1, if_neg (by omega)]
      · rw [if_neg h1]
        by_cases h2 : i < o.toNat + len
        · rw [if_pos h2, if_pos (by omega)]
        · rw [if_neg h2, if_neg (by omega)]
          congr 2
          omega

theorem foldl_unle (b : List UInt8) : ∀ acc, b.foldl (fun n b => n * 256 + b.toNat) acc = acc * 256 ^ b.length + Bytes.unbe b := by
  unfold Bytes.unbe
  induction b with
  | nil => intro acc; simp [Bytes.unle]
  | cons x b ih =>
    intro acc
    rw [List.foldl_cons, ih]
    have hr : ∀ (l : List UInt8) (y : UInt8), Bytes.unle (l ++ [y]) = Bytes.unle l + 256 ^ l.length * y.toNat := by
      intro l
      induction l with
      | nil => intro y; simp [Bytes.unle]
      | cons z l ihl =>
        intro y
        rw [List.cons_append, Bytes.unle, Bytes.unle, ihl, List.length_cons, Nat.pow_succ]
        grind
    rw [List.reverse_cons, hr, List.length_reverse, List.length_cons, Nat.pow_succ]
    grind

theorem ofBytes_wordOf (b : List UInt8) : ofBytes b = wordOf b := by
  unfold ofBytes wordOf wordN
  rw [foldl_unle, Nat.zero_mul, Nat.zero_add]

theorem le_getElem? (w n i : Nat) : (Bytes.le w n)[i]? = if i < w then some (UInt8.ofNat (n / 256 ^ i)) else none := by
  induction w generalizing n i with
  | zero => simp [Bytes.le]
  | succ w ih =>
    unfold Bytes.le
    cases i with
    | zero =>
      rw [List.getElem?_cons_zero, if_pos (Nat.succ_pos _), Nat.pow_zero, Nat.div_one]
      exact congrArg some (UInt8.toNat.inj (by rw [UInt8.toNat_ofNat', UInt8.toNat_ofNat', Nat.mod_mod_of_dvd _ (Nat.dvd_refl _)]))
    | succ i =>
      rw [List.getElem?_cons_succ, ih, Nat.div_div_eq_div_mul, Nat.pow_succ, Nat.mul_comm]
      by_cases h : i < w
      · rw [if_pos h, if_pos (by omega)]
      · rw [if_neg h, if_neg (by omega)]

theorem byteAt_wordBytes (v : Word) {j : Nat} (h : j < 32) : byteAt (wordBytes v) j = byteOf v j := by
  unfold byteAt wordBytes Bytes.be byteOf
  rw [List.getElem?_reverse (by rw [Bytes.le_length]; exact h), le_getElem?, if_pos (by rw [Bytes.le_length]; omega), Bytes.le_length]
  show UInt8.ofNat _ = UInt8.ofNat _
  congr 3

end VM
