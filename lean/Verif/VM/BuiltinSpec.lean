/-
What Ethereum's standard contracts do, after the EIPs: every input is taken to go on with zeros for ever.
-/
namespace Std.Spec

/-- The byte at a place of the input, zero behind its end. -/
def byteAt (d : List UInt8) (i : Nat) : UInt8 := (d[i]?).getD 0

/-- `n` bytes from place `o` on. -/
def field (d : List UInt8) (o n : Nat) : List UInt8 := (List.range n).map fun i => byteAt d (o + i)

/-- `n` bytes from place `o` on as a number, the first byte the highest. -/
def num (d : List UInt8) (o : Nat) : Nat → Nat
  | 0 => 0
  | n + 1 => 256 * num d o n + (byteAt d (o + n)).toNat

/-- EIP-198: lengths of base, exponent and modulus, then the three numbers; the answer has the length of the
modulus and is the power modulo the modulus, zero where the modulus is zero. -/
def IsModexp (d out : List UInt8) : Prop :=
  let B := num d 0 32
  let E := num d 32 32
  let M := num d 64 32
  let m := num d (96 + B + E) M
  out.length = M ∧ num out 0 M = if m = 0 then 0 else num d 96 B ^ num d (96 + B) E % m

/-- The number of iterations of EIP-198 and EIP-2565: the place of the highest bit of the exponent's first 32
bytes, and eight for every byte beyond. -/
def iterations (d : List UInt8) : Nat :=
  let B := num d 0 32
  let E := num d 32 32
  if E ≤ 32 then (num d (96 + B) E).log2 else 8 * (E - 32) + (num d (96 + B) 32).log2

/-- EIP-2565: squares of words of eight bytes, times the iterations, by three; 200 at least. -/
def modexpPrice (d : List UInt8) : Nat :=
  let w := (max (num d 0 32) (num d 64 32) + 7) / 8
  max 200 (w ^ 2 * max (iterations d) 1 / 3)

/-- `w` words of 32 bytes are just enough for `n` bytes. -/
def IsWords (n w : Nat) : Prop := n ≤ 32 * w ∧ 32 * w < n + 32

/-- `n` bytes from place `o` on as a number, the first byte the lowest. -/
def le (d : List UInt8) : (o n : Nat) → Nat
  | _, 0 => 0
  | o, n + 1 => (byteAt d o).toNat + 256 * le d (o + 1) n

/-- The order of the curve secp256k1. -/
def order : Nat := 2 ^ 256 - 432420386565659656852420866394968145599

/-- A signature that can be looked at: v is 27 or 28, r and s are between 1 and the order of the curve. -/
def Plausible (d : List UInt8) : Prop :=
  (num d 32 32 = 27 ∨ num d 32 32 = 28) ∧ 1 ≤ num d 64 32 ∧ num d 64 32 < order ∧
    1 ≤ num d 96 32 ∧ num d 96 32 < order

end Std.Spec
