/-
Ethereum's nine standard built-in contracts, as the chain runs them.

Models /repo/helios-chain/x/evm/core/vm/contracts.go 255-900 and common.go 60-90: what the contracts at the
addresses 1 to 9 cost and return (the Berlin versions, which are the ones the chain uses: see C103).

The curve, hash and signature functions are not part of the repository; they are parameters (`Lib`).  Lengths of
inputs are natural numbers: Go's `len` never exceeds 2^63.  That memory can be allocated is not modelled.
-/
namespace Std

abbrev Bytes := List UInt8

/-- `new(big.Int).SetBytes`: big-endian. -/
def beNat (b : Bytes) : Nat := b.foldl (fun n x => 256 * n + x.toNat) 0

/-- `(*big.Int).Bytes()`: big-endian without leading zeros; `fuel` is at least the number of bytes. -/
def beBytes : (fuel n : Nat) → Bytes
  | 0, _ => []
  | fuel + 1, n => if n = 0 then [] else beBytes fuel (n / 256) ++ [UInt8.ofNat (n % 256)]

/-- go-ethereum common/bytes.go `RightPadBytes`. -/
def rightPad (b : Bytes) (l : Nat) : Bytes := if l ≤ b.length then b else b ++ List.replicate (l - b.length) 0

/-- go-ethereum common/bytes.go `LeftPadBytes`. -/
def leftPad (b : Bytes) (l : Nat) : Bytes := if l ≤ b.length then b else List.replicate (l - b.length) 0 ++ b

/-- common.go 60-70 `getData`: the sum wraps at 2^64 (18446744073709551616); a slice whose end lies before its
start panics (`none`); the conversion of `size` to a signed number is negative from 2^63
(9223372036854775808) on, and nothing is padded then. -/
def getData (d : Bytes) (start size : Nat) : Option Bytes :=
  let s := min start d.length
  let e := min ((s + size) % 18446744073709551616) d.length
  if e < s then none
  else
    let b := (d.drop s).take (e - s)
    if 9223372036854775808 ≤ size then some b else some (rightPad b size)

/-- `x.Uint64()` of a number that may have more bits: its lowest 64. -/
def low64 (n : Nat) : Nat := n % 18446744073709551616

/-- `(*big.Int).BitLen`. -/
def bitLen (n : Nat) : Nat := if n = 0 then 0 else n.log2 + 1

/-- contracts.go 507-512 etc.: the input behind its first 96 bytes. -/
def body (d : Bytes) : Bytes := if 96 < d.length then d.drop 96 else []

/-- The three lengths at the head of the input of `bigModExp`; words of 32 bytes never wrap nor panic. -/
def word (d : Bytes) (o : Nat) : Option Nat := (getData d o 32).map beNat

/-- contracts.go 478-488: the first 32 bytes of the exponent. -/
def expHead (r : Bytes) (baseLen expLen : Nat) : Option Nat :=
  if r.length ≤ baseLen then some 0
  else if 32 < expLen then (getData r (low64 baseLen) 32).map beNat
  else (getData r (low64 baseLen) (low64 expLen)).map beNat

/-- contracts.go 467-534 `bigModExp.RequiredGas` with `eip2565`; `none`: panic. -/
def modexpGas (d : Bytes) : Option Nat := do
  let baseLen ← word d 0
  let expLen ← word d 32
  let modLen ← word d 64
  let head ← expHead (body d) baseLen expLen
  let msb := if 0 < bitLen head then bitLen head - 1 else 0
  let adj := (if 32 < expLen then 8 * (expLen - 32) else 0) + msb
  let w := (max modLen baseLen + 7) / 8
  let gas := w * w * max adj 1 / 3
  if 64 < bitLen gas then some 18446744073709551615
  else if gas < 200 then some 200
  else some gas

/-- contracts.go 536-562 `bigModExp.Run`.  `big.Int.Exp` is the power and its remainder. -/
def modexp (d : Bytes) : Option Bytes := do
  let baseLen := low64 (← word d 0)
  let expLen := low64 (← word d 32)
  let modLen := low64 (← word d 64)
  let r := body d
  if baseLen = 0 ∧ modLen = 0 then some []
  else
    let base := beNat (← getData r 0 baseLen)
    let exp := beNat (← getData r baseLen expLen)
    let m := beNat (← getData r (low64 (baseLen + expLen)) modLen)
    if m = 0 then some (leftPad [] modLen)
    else
      let x := base ^ exp % m
      some (leftPad (beBytes x x) modLen)

/-- What comes from libraries. -/
structure Lib where
  /-- `crypto.Ecrecover` of a hash and a signature (r, s, v in 65 bytes): the public key in 65 bytes -/
  recover : Bytes → Bytes → Option Bytes
  keccak : Bytes → Bytes
  sha256 : Bytes → Bytes
  ripemd : Bytes → Bytes
  /-- the points of bn256, as read and written -/
  G1 : Type
  G2 : Type
  readG1 : Bytes → Option G1
  readG2 : Bytes → Option G2
  writeG1 : G1 → Bytes
  add : G1 → G1 → G1
  mul : G1 → Nat → G1
  pairing : List (G1 × G2) → Bool
  /-- `blake2b.F`: state, message, counters, final, rounds -/
  blakeF : List Nat → List Nat → List Nat → Bool → Nat → List Nat

/-- The order of secp256k1 (`secp256k1N` of go-ethereum crypto/crypto.go). -/
def secpN : Nat := 115792089237316195423570985008687907852837564279074904382605163141518161494337

/-- go-ethereum crypto/crypto.go `ValidateSignatureValues` for `homestead = false`. -/
def validSig (v : UInt8) (r s : Nat) : Bool :=
  if r < 1 ∨ s < 1 then false else decide (r < secpN ∧ s < secpN ∧ (v = 0 ∨ v = 1))

/-- common.go 81-88 `allZero`. -/
def allZero (b : Bytes) : Bool := b.all (· == 0)

/-- contracts.go 309-338 `ecrecover.Run`: never an error; the empty answer for what is no signature. -/
def ecrecover (L : Lib) (input : Bytes) : Bytes :=
  let d := rightPad input 128
  let r := beNat ((d.drop 64).take 32)
  let s := beNat ((d.drop 96).take 32)
  let v := d.getD 63 0 - 27
  if allZero ((d.drop 32).take 31) = false ∨ validSig v r s = false then []
  else match L.recover (d.take 32) ((d.drop 64).take 64 ++ [v]) with
    | none => []
    | some k => leftPad ((L.keccak (k.drop 1)).drop 12) 32

/-- contracts.go 585-597 `runBn256Add`; sizes this small do not wrap. -/
def bnAdd (L : Lib) (d : Bytes) : Option Bytes := do
  let x ← (getData d 0 64).bind L.readG1
  let y ← (getData d 64 64).bind L.readG1
  some (L.writeG1 (L.add x y))

/-- contracts.go 643-651 `runBn256ScalarMul`. -/
def bnMul (L : Lib) (d : Bytes) : Option Bytes := do
  let x ← (getData d 0 64).bind L.readG1
  let n ← getData d 64 32
  some (L.writeG1 (L.mul x (beNat n)))

/-- contracts.go 709-726, the loop: `n` points are left in the input. -/
def readPairs (L : Lib) : Nat → Bytes → Option (List (L.G1 × L.G2))
  | 0, _ => some []
  | n + 1, d => do
    let c ← L.readG1 (d.take 64)
    let t ← L.readG2 ((d.drop 64).take 128)
    let rest ← readPairs L n (d.drop 192)
    some ((c, t) :: rest)

/-- contracts.go 702-733 `runBn256Pairing`. -/
def bnPairing (L : Lib) (d : Bytes) : Option Bytes :=
  if 0 < d.length % 192 then none
  else do
    let ps ← readPairs L (d.length / 192) d
    some (if L.pairing ps then List.replicate 31 0 ++ [1] else List.replicate 32 0)

/-- `binary.LittleEndian.Uint64`, and the same for fewer bytes. -/
def leNat : Bytes → Nat
  | [] => 0
  | x :: l => x.toNat + 256 * leNat l

/-- `binary.LittleEndian.PutUint64`: the lowest `k` bytes. -/
def lePut : (k n : Nat) → Bytes
  | 0, _ => []
  | k + 1, n => UInt8.ofNat (n % 256) :: lePut k (n / 256)

/-- `k` words of eight bytes, from `o` on. -/
def leWords (d : Bytes) (o k : Nat) : List Nat := (List.range k).map fun i => leNat ((d.drop (o + 8 * i)).take 8)

/-- contracts.go 777-784 `blake2F.RequiredGas`. -/
def blakeGas (d : Bytes) : Nat := if d.length ≠ 213 then 0 else beNat (d.take 4)

/-- contracts.go 797-832 `blake2F.Run`. -/
def blake2F (L : Lib) (d : Bytes) : Option Bytes :=
  if d.length ≠ 213 then none
  else if d.getD 212 0 ≠ 0 ∧ d.getD 212 0 ≠ 1 then none
  else
    let h := L.blakeF (leWords d 4 8) (leWords d 68 16) (leWords d 196 2) (d.getD 212 0 == 1) (beNat (d.take 4))
    some ((h.take 8).flatMap (lePut 8))

/-- What `Run` gives: an answer, an error or a panic. -/
inductive Out where
  | ok (b : Bytes)
  | err
  | panic
deriving DecidableEq

/-- An error where there is no answer. -/
def orErr : Option Bytes → Out
  | some b => .ok b
  | none => .err

/-- A panic where there is no answer. -/
def orPanic : Option Bytes → Out
  | some b => .ok b
  | none => .panic

/-- The `Run` of the contract at address `n`. -/
def runOf (L : Lib) (n : Nat) (d : Bytes) : Out :=
  match n with
  | 1 => .ok (ecrecover L d)
  | 2 => .ok (L.sha256 d)
  | 3 => .ok (leftPad (L.ripemd d) 32)
  | 4 => .ok d
  | 5 => orPanic (modexp d)
  | 6 => orErr (bnAdd L d)
  | 7 => orErr (bnMul L d)
  | 8 => orErr (bnPairing L d)
  | 9 => orErr (blake2F L d)
  | _ => .err

/-- The `RequiredGas` of the contract at address `n`, with the prices of go-ethereum params/protocol_params.go
(3000; 60 and 12 a word; 600 and 120; 15 and 3; 150; 6000; 45000 and 34000 a pair). -/
def gasOf (n : Nat) (d : Bytes) : Option Nat :=
  match n with
  | 1 => some 3000
  | 2 => some ((d.length + 31) / 32 * 12 + 60)
  | 3 => some ((d.length + 31) / 32 * 120 + 600)
  | 4 => some ((d.length + 31) / 32 * 3 + 15)
  | 5 => modexpGas d
  | 6 => some 150
  | 7 => some 6000
  | 8 => some (45000 + d.length / 192 * 34000)
  | 9 => some (blakeGas d)
  | _ => none

/-- contracts.go 271-294 `runPrecompiledContract` with the end of evm.go `Call` (a failure takes all the gas):
the answer and the gas that is left. -/
def exec (L : Lib) (n : Nat) (d : Bytes) (gas : Nat) : Out × Nat :=
  match gasOf n d with
  | none => (.panic, 0)
  | some g =>
    if gas < g then (.err, 0)
    else match runOf L n d with
      | .ok b => (.ok b, gas - g)
      | .err => (.err, 0)
      | .panic => (.panic, 0)

end Std
