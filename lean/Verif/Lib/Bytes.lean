/-!
# Fixed-width integers as bytes, slices

Go's `encoding/binary` little/big endian `PutUint32/64`, and bounds-checked slicing.
-/
namespace Bytes

/-- Little-endian encoding of `n` in `w` bytes (truncating, like a conversion to uintN first). -/
def le : Nat → Nat → List UInt8
  | 0, _ => []
  | w + 1, n => UInt8.ofNat (n % 256) :: le w (n / 256)

/-- Little-endian decoding. -/
def unle : List UInt8 → Nat
  | [] => 0
  | b :: bs => b.toNat + 256 * unle bs

/-- Big-endian encoding in `w` bytes. -/
def be (w n : Nat) : List UInt8 := (le w n).reverse

/-- Big-endian decoding. -/
def unbe (b : List UInt8) : Nat := unle b.reverse

/-- `b[off : off+len]`; `none` is Go's out-of-range panic. -/
def slice (b : List UInt8) (off len : Nat) : Option (List UInt8) :=
  if off + len ≤ b.length then some ((b.drop off).take len) else none

@[simp] theorem le_length (w n : Nat) : (le w n).length = w := by
  induction w generalizing n with
  | zero => rfl
  | succ w ih => simp [le, ih]

@[simp] theorem be_length (w n : Nat) : (be w n).length = w := by simp [be]

theorem unle_le (w n : Nat) (h : n < 256 ^ w) : unle (le w n) = n := by
  induction w generalizing n with
  | zero => simp at h; simp [le, unle, h]
  | succ w ih =>
    have h1 : n / 256 < 256 ^ w := by
      rw [Nat.div_lt_iff_lt_mul (by decide)]; rw [Nat.pow_succ] at h; exact h
    simp only [le, unle, ih _ h1, UInt8.toNat_ofNat']
    omega

theorem unle_lt (b : List UInt8) : unle b < 256 ^ b.length := by
  induction b with
  | nil => simp [unle]
  | cons x b ih =>
    have := x.toNat_lt
    simp only [unle, List.length_cons, Nat.pow_succ]; omega

theorem le_unle (b : List UInt8) : le b.length (unle b) = b := by
  induction b with
  | nil => rfl
  | cons x b ih =>
    have h := x.toNat_lt
    have h1 : (x.toNat + 256 * unle b) % 256 = x.toNat := by omega
    have h2 : (x.toNat + 256 * unle b) / 256 = unle b := by omega
    simp only [List.length_cons, unle, le, h1, h2, ih]
    simp

theorem unbe_be (w n : Nat) (h : n < 256 ^ w) : unbe (be w n) = n := by
  simp [unbe, be, unle_le w n h]

theorem be_unbe (b : List UInt8) : be b.length (unbe b) = b := by
  have := le_unle b.reverse
  simp only [List.length_reverse] at this
  simp [unbe, be, this]

theorem le_inj {w m n : Nat} (hm : m < 256 ^ w) (hn : n < 256 ^ w) (h : le w m = le w n) : m = n := by
  rw [← unle_le w m hm, h, unle_le w n hn]

theorem be_inj {w m n : Nat} (hm : m < 256 ^ w) (hn : n < 256 ^ w) (h : be w m = be w n) : m = n := by
  rw [← unbe_be w m hm, h, unbe_be w n hn]

theorem slice_append {a b c : List UInt8} {off len : Nat} (h1 : off = a.length) (h2 : len = b.length) :
    slice (a ++ b ++ c) off len = some b := by
  subst h1 h2
  unfold slice
  rw [if_pos (by simp)]
  simp

theorem slice_slice {b s : List UInt8} {off len off' len' : Nat} (h : slice b off len = some s)
    (h' : off' + len' ≤ len) : slice b (off + off') len' = slice s off' len' := by
  unfold slice at h
  split at h
  · rename_i hle
    simp only [Option.some.injEq] at h
    subst h
    unfold slice
    rw [if_pos (by omega), if_pos (by simp; omega)]
    simp only [List.drop_take, List.drop_drop, List.take_take]
    congr 2; omega
  · simp at h

end Bytes
