/-!
# Jump destination analysis

Models helios-chain/x/evm/core/vm/analysis.go (all) and `validJumpdest`, `isCode`, `GetOp` (contract.go 105-166, 181-187). Bytes of the bit vector are `BitVec 8`; writing
outside of it, a run time panic in Go, is `none`. The cache of analyses by code hash is left out: it returns what the analysis would compute.
-/
namespace VM

/-- `PUSH1`, `PUSH32`, `JUMPDEST` (opcodes.go). -/
def PUSH1 : Nat := 0x60
def PUSH32 : Nat := 0x7f
def JUMPDEST : Nat := 0x5b

/-- A write to one byte of the vector. -/
def upd (bits : List (BitVec 8)) (i : Nat) (f : BitVec 8 → BitVec 8) : Option (List (BitVec 8)) :=
  match bits[i]? with
  | none => none
  | some b => some (bits.set i (f b))

/-- `set1` (analysis.go 32-34). -/
def set1 (bits : List (BitVec 8)) (pos : Nat) : Option (List (BitVec 8)) := upd bits (pos / 8) (· ||| (1#8 <<< (pos % 8)))

/-- `setN` (analysis.go 36-42). -/
def setN (bits : List (BitVec 8)) (flag : BitVec 16) (pos : Nat) : Option (List (BitVec 8)) :=
  match upd bits (pos / 8) (· ||| (flag <<< (pos % 8)).setWidth 8) with
  | none => none
  | some bits =>
    if ((flag <<< (pos % 8)) >>> 8).setWidth 8 ≠ 0#8 then upd bits (pos / 8 + 1) (fun _ => ((flag <<< (pos % 8)) >>> 8).setWidth 8)
    else some bits

/-- `set8` (analysis.go 44-48). -/
def set8 (bits : List (BitVec 8)) (pos : Nat) : Option (List (BitVec 8)) :=
  match upd bits (pos / 8) (· ||| (0xff#8 <<< (pos % 8))) with
  | none => none
  | some bits => upd bits (pos / 8 + 1) (fun _ => ~~~(0xff#8 <<< (pos % 8)))

/-- `set16` (analysis.go 50-55). -/
def set16 (bits : List (BitVec 8)) (pos : Nat) : Option (List (BitVec 8)) :=
  match upd bits (pos / 8) (· ||| (0xff#8 <<< (pos % 8))) with
  | none => none
  | some bits =>
    match upd bits (pos / 8 + 1) (fun _ => 0xff#8) with
    | none => none
    | some bits => upd bits (pos / 8 + 2) (fun _ => ~~~(0xff#8 <<< (pos % 8)))

/-- `codeSegment` (analysis.go 58-60). -/
def codeSegment (bits : List (BitVec 8)) (pos : Nat) : Option Bool :=
  match bits[pos / 8]? with
  | none => none
  | some b => some (((b >>> (pos % 8)) &&& 1#8) == 0#8)

/-- The loop `for ; numbits >= 16; numbits -= 16` (analysis.go 84-87), with fuel. -/
def set16s : Nat → List (BitVec 8) → (pc numbits : Nat) → Option (List (BitVec 8) × Nat × Nat)
  | 0, bits, pc, n => some (bits, pc, n)
  | fuel + 1, bits, pc, n =>
    if 16 ≤ n then
      match set16 bits pc with
      | none => none
      | some bits => set16s fuel bits (pc + 16) (n - 16)
    else some (bits, pc, n)

/-- The loop `for ; numbits >= 8; numbits -= 8` (analysis.go 88-91). -/
def set8s : Nat → List (BitVec 8) → (pc numbits : Nat) → Option (List (BitVec 8) × Nat × Nat)
  | 0, bits, pc, n => some (bits, pc, n)
  | fuel + 1, bits, pc, n =>
    if 8 ≤ n then
      match set8 bits pc with
      | none => none
      | some bits => set8s fuel bits (pc + 8) (n - 8)
    else some (bits, pc, n)

/-- The switch (analysis.go 93-115): the last zero to seven bits. -/
def setRest (bits : List (BitVec 8)) (pc : Nat) : Nat → Option (List (BitVec 8))
  | 1 => set1 bits pc
  | 2 => setN bits 0b11#16 pc
  | 3 => setN bits 0b111#16 pc
  | 4 => setN bits 0b1111#16 pc
  | 5 => setN bits 0b11111#16 pc
  | 6 => setN bits 0b111111#16 pc
  | 7 => setN bits 0b1111111#16 pc
  | _ => some bits

/-- Marking the data of one push instruction (analysis.go 82-115). -/
def setPush (bits : List (BitVec 8)) (pc numbits : Nat) : Option (List (BitVec 8) × Nat) :=
  match set16s numbits bits pc numbits with
  | none => none
  | some (bits, pc, n) =>
    match set8s n bits pc n with
    | none => none
    | some (bits, pc, n) =>
      match setRest bits pc n with
      | none => none
      | some bits => some (bits, pc + n)

/-- `int8(op) < int8(PUSH1)` (analysis.go 79): bytes from 0x80 are negative. -/
def notPush (op : UInt8) : Bool := decide ((BitVec.ofNat 8 op.toNat).toInt < (BitVec.ofNat 8 PUSH1).toInt)

/-- `numbits := op - PUSH1 + 1` (analysis.go 82). -/
def numbits (op : UInt8) : Nat := op.toNat - PUSH1 + 1

/-- One round of the loop for the instruction `op` at `pc` (analysis.go 77-115): the new vector and position. -/
def mark (bits : List (BitVec 8)) (pc : Nat) (op : UInt8) : Option (List (BitVec 8) × Nat) :=
  if notPush op then some (bits, pc + 1) else setPush bits (pc + 1) (numbits op)

/-- `codeBitmapInternal` (analysis.go 75-118), with fuel for the loop. -/
def bitmapLoop : Nat → List UInt8 → List (BitVec 8) → (pc : Nat) → Option (List (BitVec 8))
  | 0, _, bits, _ => some bits
  | fuel + 1, code, bits, pc =>
    match code[pc]? with
    | none => some bits
    | some op =>
      match mark bits pc op with
      | none => none
      | some (bits, pc) => bitmapLoop fuel code bits pc

/-- `codeBitmap` (analysis.go 64-70). -/
def codeBitmap (code : List UInt8) : Option (List (BitVec 8)) :=
  bitmapLoop code.length code (List.replicate (code.length / 8 + 1 + 4) 0#8) 0

/-- `validJumpdest` (contract.go 105-121) for a destination below 2^256. `none` is a panic. -/
def validJumpdest (code : List UInt8) (dest : Nat) : Option Bool :=
  if dest ≥ 2 ^ 64 ∨ dest ≥ code.length then some false
  else match code[dest]? with
    | none => none
    | some op =>
      if op.toNat ≠ JUMPDEST then some false
      else match codeBitmap code with
        | none => none
        | some bits => codeSegment bits dest

/-- `GetOp` (contract.go 181-187): `STOP` behind the end. -/
def getOp (code : List UInt8) (pc : Nat) : UInt8 := code[pc]?.getD 0

end VM
