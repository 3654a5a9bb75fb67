/-!
# Gas of memory, copies, logs and calls

Models helios-chain/x/evm/core/vm: common.go 26-88, gas.go 33-53, gas_table.go 27-98, 207-330, the part of jump_table.go and params of go-ethereum
that fix the constants. Gas is a natural number; where Go adds or subtracts without a check the result is reduced modulo 2^64.
-/
namespace VM

/-- Stack words. -/
abbrev Word := BitVec 256

/-- Addresses. -/
abbrev Addr := BitVec 160

/-- `Bytes20` of a word: its low 160 bits. -/
def toAddr (w : Word) : Addr := w.setWidth 160

/-- `Uint64` of a word. -/
def low64 (w : Word) : Nat := w.toNat % 2 ^ 64

/-- `IsUint64`. -/
def is64 (w : Word) : Bool := decide (w.toNat < 2 ^ 64)

/-- `math.SafeAdd`, `math.SafeMul` of go-ethereum: `none` on overflow. -/
def safeAdd (a b : Nat) : Option Nat := if a + b < 2 ^ 64 then some (a + b) else none
def safeMul (a b : Nat) : Option Nat := if a * b < 2 ^ 64 then some (a * b) else none

/-- Unchecked sum and difference of unsigned 64-bit numbers. -/
def add64 (a b : Nat) : Nat := (a + b) % 2 ^ 64
def sub64 (a b : Nat) : Nat := (a + 2 ^ 64 - b) % 2 ^ 64

/-- `toWordSize` (common.go 72-78). -/
def toWordSize (size : Nat) : Nat := if size > 2 ^ 64 - 1 - 31 then (2 ^ 64 - 1) / 32 + 1 else (size + 31) / 32

/-- `calcMemSize64WithUint` (common.go 41-54): `none` on overflow. -/
def calcMemSizeLen (off : Word) (length : Nat) : Option Nat :=
  if length = 0 then some 0
  else if off.toNat ≥ 2 ^ 64 then none
  else if add64 off.toNat length < off.toNat then none
  else some (add64 off.toNat length)

/-- `calcMemSize64` (common.go 32-37). -/
def calcMemSize (off len : Word) : Option Nat := if is64 len then calcMemSizeLen off len.toNat else none

/-- The fee for a memory of this many words (gas_table.go 44-47), unchecked arithmetic. -/
def totalFee (words : Nat) : Nat := add64 (words * 3 % 2 ^ 64) (words * words % 2 ^ 64 / 512)

/-- `memoryGasCost` (gas_table.go 27-56) for a memory of `len` bytes for which `last` was paid: the fee and the new `lastGasCost`. -/
def memoryGasCost (len last newSize : Nat) : Option (Nat × Nat) :=
  if newSize = 0 then some (0, last)
  else if newSize > 0x1FFFFFFFE0 then none
  else if toWordSize newSize * 32 > len then some (sub64 (totalFee (toWordSize newSize)) last, totalFee (toWordSize newSize))
  else some (0, last)

/-- The charge per word of `memoryCopierGas`, `gasKeccak256` and `gasCreate2` (gas_table.go 66-90, 241-256, 276-291). -/
def wordGas (perWord : Nat) (size : Word) (gas : Nat) : Option Nat :=
  if is64 size then
    match safeMul (toWordSize size.toNat) perWord with
    | none => none
    | some w => safeAdd gas w
  else none

/-- The charge of a log with `n` topics (gas_table.go 211-238) on top of the memory. -/
def logGas (n : Nat) (size : Word) (gas : Nat) : Option Nat :=
  if is64 size then
    match safeAdd gas 375 with
    | none => none
    | some g =>
      match safeAdd g (n * 375) with
      | none => none
      | some g =>
        match safeMul size.toNat 8 with
        | none => none
        | some d => safeAdd g d
  else none

/-- The dynamic charge of `EXP` (gas_table.go 306-317). -/
def expGas (exponent : Word) : Nat := ((exponent.toNat.log2 + 1 + 7) / 8 * (if exponent.toNat = 0 then 0 else 1)) * 50 + 10

/-- `callGas` (gas.go 33-53) with EIP-150: all but a 64th of what is left, at most what is asked for. -/
def callGas (available base : Nat) (asked : Word) : Nat :=
  let left := sub64 available base
  let most := left - left / 64
  if is64 asked = false ∨ most < asked.toNat then most else asked.toNat

/-- The gas functions of the four calls with EIP-2929 (operations_acl.go 155-188, gas_table.go 319-407): `own` is what the call itself costs (new
account, transfer of value), `mem` what the memory costs. Result: the dynamic cost and the gas for the callee; `none` is an error. -/
def callDynGas (gas : Nat) (warm : Bool) (own mem : Nat) (asked : Word) : Option (Nat × Nat) :=
  let cold := if warm then 0 else 2600 - 100
  if gas < cold then none
  else match safeAdd own mem with
    | none => none
    | some base =>
      let child := callGas (gas - cold) base asked
      match safeAdd base child with
      | none => none
      | some total => some (add64 total cold, child)

end VM
