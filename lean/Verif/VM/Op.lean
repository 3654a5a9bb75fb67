import Verif.VM.Gas
import Verif.Lib.Bytes
/-!
# Instructions of the virtual machine

Models the London jump table (helios-chain/x/evm/core/vm/jump_table.go 62-1100 with eips.go: 1344, 1884, 2929, 3198, 3529 and optionally 3855), the pure
instructions (instructions.go 28-240) and the memory (memory.go). Instructions that are treated alike share a constructor.
-/
namespace VM

inductive UnOp where | not | iszero
deriving DecidableEq

inductive BinOp where
  | add | sub | mul | div | sdiv | mod | smod | signextend | lt | gt | slt | sgt | eq | and | or | xor | byte | shl | shr | sar
deriving DecidableEq

inductive TernOp where | addmod | mulmod
deriving DecidableEq

/-- Instructions that take nothing and push one word. -/
inductive NullOp where
  | address | origin | caller | callvalue | calldatasize | codesize | gasprice | returndatasize | coinbase | timestamp | number | difficulty
  | gaslimit | chainid | selfbalance | basefee | pc | msize | gas | push0
deriving DecidableEq

inductive CopyOp where | calldata | code | returndata
deriving DecidableEq

inductive CallKind where | call | callcode | delegate | static
deriving DecidableEq

/-- `push n`, `dup n`, `swap n` stand for PUSH(n+1), DUP(n+1), SWAP(n+1). -/
inductive Op where
  | stop | un (o : UnOp) | bin (o : BinOp) | tern (o : TernOp) | exp | keccak | null (o : NullOp) | balance | calldataload | copy (o : CopyOp)
  | extcodesize | extcodecopy | extcodehash | blockhash | pop | mload | mstore | mstore8 | sload | sstore | jump | jumpi | jumpdest
  | push (n : Nat) | dup (n : Nat) | swap (n : Nat) | log (n : Nat) | create | create2 | call (k : CallKind) | ret | revert | selfdestruct | invalid
deriving DecidableEq

/-- The opcodes (opcodes.go) of the London table; `push0` says whether EIP-3855 is among the extra EIPs of the chain. Blob, transient storage and other
later instructions do not exist. -/
def decodeLow (push0 : Bool) (b : Nat) : Op :=
  match b with
  | 0x00 => .stop | 0x01 => .bin .add | 0x02 => .bin .mul | 0x03 => .bin .sub | 0x04 => .bin .div | 0x05 => .bin .sdiv | 0x06 => .bin .mod
  | 0x07 => .bin .smod | 0x08 => .tern .addmod | 0x09 => .tern .mulmod | 0x0a => .exp | 0x0b => .bin .signextend
  | 0x10 => .bin .lt | 0x11 => .bin .gt | 0x12 => .bin .slt | 0x13 => .bin .sgt | 0x14 => .bin .eq | 0x15 => .un .iszero | 0x16 => .bin .and
  | 0x17 => .bin .or | 0x18 => .bin .xor | 0x19 => .un .not | 0x1a => .bin .byte | 0x1b => .bin .shl | 0x1c => .bin .shr | 0x1d => .bin .sar
  | 0x20 => .keccak
  | 0x30 => .null .address | 0x31 => .balance | 0x32 => .null .origin | 0x33 => .null .caller | 0x34 => .null .callvalue | 0x35 => .calldataload
  | 0x36 => .null .calldatasize | 0x37 => .copy .calldata | 0x38 => .null .codesize | 0x39 => .copy .code | 0x3a => .null .gasprice
  | 0x3b => .extcodesize | 0x3c => .extcodecopy | 0x3d => .null .returndatasize | 0x3e => .copy .returndata | 0x3f => .extcodehash
  | 0x40 => .blockhash | 0x41 => .null .coinbase | 0x42 => .null .timestamp | 0x43 => .null .number | 0x44 => .null .difficulty
  | 0x45 => .null .gaslimit | 0x46 => .null .chainid | 0x47 => .null .selfbalance | 0x48 => .null .basefee
  | 0x50 => .pop | 0x51 => .mload | 0x52 => .mstore | 0x53 => .mstore8 | 0x54 => .sload | 0x55 => .sstore | 0x56 => .jump | 0x57 => .jumpi
  | 0x58 => .null .pc | 0x59 => .null .msize | 0x5a => .null .gas | 0x5b => .jumpdest | 0x5f => if push0 then .null .push0 else .invalid
  | _ => .invalid

def decodeHigh (b : Nat) : Op :=
  match b with
  | 0xf0 => .create | 0xf1 => .call .call | 0xf2 => .call .callcode | 0xf3 => .ret | 0xf4 => .call .delegate | 0xf5 => .create2
  | 0xfa => .call .static | 0xfd => .revert | 0xff => .selfdestruct
  | _ => .invalid

def decode (push0 : Bool) (op : UInt8) : Op :=
  let b := op.toNat
  if b < 0x60 then decodeLow push0 b
  else if b < 0x80 then .push (b - 0x60)
  else if b < 0x90 then .dup (b - 0x80)
  else if b < 0xa0 then .swap (b - 0x90)
  else if b < 0xa5 then .log (b - 0xa0)
  else decodeHigh b

/-- `constantGas` of the table. -/
def constGas : Op → Nat
  | .stop => 0 | .un _ => 3
  | .bin .add => 3 | .bin .sub => 3 | .bin .mul => 5 | .bin .div => 5 | .bin .sdiv => 5 | .bin .mod => 5 | .bin .smod => 5 | .bin .signextend => 5
  | .bin _ => 3 | .tern _ => 8 | .exp => 0 | .keccak => 30
  | .null .selfbalance => 5 | .null _ => 2
  | .balance => 100 | .calldataload => 3 | .copy _ => 3 | .extcodesize => 100 | .extcodecopy => 100 | .extcodehash => 100 | .blockhash => 20
  | .pop => 2 | .mload => 3 | .mstore => 3 | .mstore8 => 3 | .sload => 0 | .sstore => 0 | .jump => 8 | .jumpi => 10 | .jumpdest => 1
  | .push _ => 3 | .dup _ => 3 | .swap _ => 3 | .log _ => 0 | .create => 32000 | .create2 => 32000 | .call _ => 100 | .ret => 0 | .revert => 0
  | .selfdestruct => 5000 | .invalid => 0

/-- Words taken (`minStack`, stack_table.go). For `dup` and `swap` these are the words looked at. -/
def pops : Op → Nat
  | .stop => 0 | .un _ => 1 | .bin _ => 2 | .tern _ => 3 | .exp => 2 | .keccak => 2 | .null _ => 0 | .balance => 1 | .calldataload => 1 | .copy _ => 3
  | .extcodesize => 1 | .extcodecopy => 4 | .extcodehash => 1 | .blockhash => 1 | .pop => 1 | .mload => 1 | .mstore => 2 | .mstore8 => 2
  | .sload => 1 | .sstore => 2 | .jump => 1 | .jumpi => 2 | .jumpdest => 0 | .push _ => 0 | .dup n => n + 1 | .swap n => n + 2 | .log n => n + 2
  | .create => 3 | .create2 => 4 | .call .call => 7 | .call .callcode => 7 | .call _ => 6 | .ret => 2 | .revert => 2 | .selfdestruct => 1 | .invalid => 0

/-- Words put back. -/
def pushes : Op → Nat
  | .stop => 0 | .un _ => 1 | .bin _ => 1 | .tern _ => 1 | .exp => 1 | .keccak => 1 | .null _ => 1 | .balance => 1 | .calldataload => 1 | .copy _ => 0
  | .extcodesize => 1 | .extcodecopy => 0 | .extcodehash => 1 | .blockhash => 1 | .pop => 0 | .mload => 1 | .mstore => 0 | .mstore8 => 0
  | .sload => 1 | .sstore => 0 | .jump => 0 | .jumpi => 0 | .jumpdest => 0 | .push _ => 1 | .dup n => n + 2 | .swap n => n + 2 | .log _ => 0
  | .create => 1 | .create2 => 1 | .call _ => 1 | .ret => 0 | .revert => 0 | .selfdestruct => 0 | .invalid => 0

/-- `maxStack` (stack_table.go 38-40): limit 1024. -/
def maxStack (op : Op) : Nat := 1024 + pops op - pushes op

/-- One and zero. -/
def ofBool (b : Bool) : Word := if b then 1#256 else 0#256

/-- instructions.go `opNot`, `opIszero`. -/
def unOp : UnOp → Word → Word
  | .not, x => ~~~x
  | .iszero, x => ofBool (x == 0#256)

/-- `ExtendSign` of holiman/uint256. -/
def signExtend (back num : Word) : Word :=
  if back.toNat > 30 then num
  else
    let bits := 8 * (back.toNat + 1)
    ((num.setWidth bits).signExtend 256)

/-- instructions.go 28-240: the binary instructions; the first argument is the top of the stack. Division by zero gives zero. -/
def binOp : BinOp → Word → Word → Word
  | .add, x, y => x + y
  | .sub, x, y => x - y
  | .mul, x, y => x * y
  | .div, x, y => if y = 0#256 then 0#256 else x / y
  | .sdiv, x, y => if y = 0#256 then 0#256 else BitVec.sdiv x y
  | .mod, x, y => if y = 0#256 then 0#256 else x % y
  | .smod, x, y => if y = 0#256 then 0#256 else BitVec.srem x y
  | .signextend, x, y => signExtend x y
  | .lt, x, y => ofBool (BitVec.ult x y)
  | .gt, x, y => ofBool (BitVec.ult y x)
  | .slt, x, y => ofBool (BitVec.slt x y)
  | .sgt, x, y => ofBool (BitVec.slt y x)
  | .eq, x, y => ofBool (x == y)
  | .and, x, y => x &&& y
  | .or, x, y => x ||| y
  | .xor, x, y => x ^^^ y
  | .byte, x, y => if x.toNat < 32 then (y >>> (8 * (31 - x.toNat))) &&& 0xff#256 else 0#256
  | .shl, x, y => if x.toNat < 256 then y <<< x.toNat else 0#256
  | .shr, x, y => if x.toNat < 256 then y >>> x.toNat else 0#256
  | .sar, x, y => if x.toNat > 256 then (if BitVec.slt y 0#256 then BitVec.allOnes 256 else 0#256) else BitVec.sshiftRight y x.toNat

/-- instructions.go 190-205. -/
def ternOp : TernOp → Word → Word → Word → Word
  | .addmod, x, y, z => if z = 0#256 then 0#256 else BitVec.ofNat 256 ((x.toNat + y.toNat) % z.toNat)
  | .mulmod, x, y, z => if z = 0#256 then 0#256 else BitVec.ofNat 256 ((x.toNat * y.toNat) % z.toNat)

/-- Power modulo `2^256` by repeated squaring, with fuel for the bits of the exponent. -/
def powLoop : Nat → Word → Nat → Word
  | 0, _, _ => 1#256
  | fuel + 1, b, e => if e = 0 then 1#256 else if e % 2 = 1 then b * powLoop fuel (b * b) (e / 2) else powLoop fuel (b * b) (e / 2)

def expOp (base e : Word) : Word := powLoop 256 base e.toNat

/-- `Bytes32` and `SetBytes`. -/
def wordBytes (w : Word) : List UInt8 := Bytes.be 32 w.toNat
def ofBytes (b : List UInt8) : Word := BitVec.ofNat 256 (Bytes.unbe b)

/-- `getData` (common.go 59-69): padded with zeros. Simplified: no wrap-around of the end, as sizes are bounded by the memory limit. -/
def getData (data : List UInt8) (start size : Nat) : List UInt8 :=
  let d := (data.drop start).take size
  d ++ List.replicate (size - d.length) 0

/-- `Uint64WithOverflow` with the fallback used by the copy instructions. -/
def offset64 (w : Word) : Nat := if is64 w then w.toNat else 2 ^ 64 - 1

/-- `Resize` (memory.go 64-68). -/
def resize (store : List UInt8) (size : Nat) : List UInt8 := store ++ List.replicate (size - store.length) 0

/-- `GetPtr`, `GetCopy` (memory.go 71-98) on the signed values of `off` and `size`: `none` is a panic of the runtime. (A slice that ends behind the length
but within the capacity would give stale bytes instead of a panic; it counts as a panic here.) -/
def memGet (store : List UInt8) (off size : Nat) : Option (List UInt8) :=
  if size = 0 then some []
  else if off ≥ 2 ^ 63 ∨ size ≥ 2 ^ 63 then none
  else if store.length > off then
    if off + size ≤ store.length then some ((store.drop off).take size) else none
  else some []

/-- `Set` and `Set32` (memory.go 36-62): `none` is the panic. -/
def memSet (store : List UInt8) (off size : Nat) (value : List UInt8) : Option (List UInt8) :=
  if size = 0 then some store
  else if off + size > store.length then none
  else some (store.take off ++ value.take size ++ store.drop (off + (value.take size).length))

/-- The memory a call or other instruction needs (memory_table.go). `none`: the stack is too short (a panic); `some none`: overflow. -/
def memSize (op : Op) (st : List Word) : Option (Option Nat) :=
  match op with
  | .keccak | .ret | .revert | .log _ =>
    match st with
    | o :: l :: _ => some (calcMemSize o l)
    | _ => none
  | .copy _ =>
    match st with
    | o :: _ :: l :: _ => some (calcMemSize o l)
    | _ => none
  | .extcodecopy =>
    match st with
    | _ :: o :: _ :: l :: _ => some (calcMemSize o l)
    | _ => none
  | .mload | .mstore =>
    match st with
    | o :: _ => some (calcMemSizeLen o 32)
    | _ => none
  | .mstore8 =>
    match st with
    | o :: _ => some (calcMemSizeLen o 1)
    | _ => none
  | .create | .create2 =>
    match st with
    | _ :: o :: l :: _ => some (calcMemSize o l)
    | _ => none
  | .call .call | .call .callcode =>
    match st with
    | _ :: _ :: _ :: io :: is :: ro :: rs :: _ =>
      some (match calcMemSize ro rs, calcMemSize io is with
        | some x, some y => some (if x > y then x else y)
        | _, _ => none)
    | _ => none
  | .call _ =>
    match st with
    | _ :: _ :: io :: is :: ro :: rs :: _ =>
      some (match calcMemSize ro rs, calcMemSize io is with
        | some x, some y => some (if x > y then x else y)
        | _, _ => none)
    | _ => none
  | _ => some (some 0)

end VM
