import Verif.VM.World
import Verif.VM.Op
import Verif.VM.Analysis
/-!
# The interpreter

Models helios-chain/x/evm/core/vm: interpreter.go 129-278 (`Run`), instructions.go 242-960, gas_table.go and operations_acl.go (gas functions), evm.go
180-560 (`Call`, `CallCode`, `DelegateCall`, `StaticCall`, `create`) under the rules of the London fork. Left out: tracing, preimages, `Cancel`. Index and
slice errors and explicit panics are the outcome `panic`.
-/
namespace VM

/-- What a precompiled contract gives back (contracts.go 261-295 together with `RequiredGas`). -/
structure PRes where
  world : World
  gas : Nat
  ret : List UInt8
  ok : Bool
  reverted : Bool := false

/-- Block and transaction context, hash function, address derivation, hooks and precompiled contracts. -/
structure Env where
  origin : Addr
  gasPrice : Word
  coinbase : Addr
  time : Word
  number : Nat
  difficulty : Word
  gasLimit : Nat
  chainId : Word
  baseFee : Word
  blockHash : Nat → Word
  keccak : List UInt8 → Word
  createAddr : Addr → Nat → Addr
  create2Addr : Addr → Word → List UInt8 → Addr
  push0 : Bool
  callHook : Addr → Addr → Bool
  createHook : Addr → Bool
  /-- `RunPrecompiledContract` for caller, value, input, gas, the flag `readOnly`. -/
  precompile : Addr → Option (Addr → Int → List UInt8 → Nat → Bool → World → PRes)

/-- What is fixed during a frame (contract.go 44-64, interpreter.go): `depth` is `evm.depth` inside `Run`. -/
structure Ctx where
  self : Addr
  caller : Addr
  value : Int
  input : List UInt8
  code : List UInt8
  depth : Nat
  readOnly : Bool

/-- What changes: counter, stack (top first), memory, fee already paid for it, return data of the last call. -/
structure Mach where
  pc : Nat
  stack : List Word
  mem : List UInt8
  last : Nat
  retData : List UInt8

/-- How a frame ends. `fail` stands for all errors but `ErrExecutionReverted`. -/
inductive Status where
  | ok | reverted | fail | panic | outOfFuel
deriving DecidableEq

structure Res where
  status : Status
  world : World
  gas : Nat
  ret : List UInt8

/-- Result of a gas function: cost, gas for the callee (`callGasTemp`), new `lastGasCost`, state. -/
inductive GasRes where
  | ok (cost child last : Nat) (w : World)
  | fail (w : World)
  | panic

/-- A fee added to the memory's fee. -/
def memGas (m : Mach) (w : World) (size : Nat) (more : Nat → Option Nat) : GasRes :=
  match memoryGasCost m.mem.length m.last size with
  | none => .fail w
  | some (fee, last) =>
    match more fee with
    | none => .fail w
    | some g => .ok g 0 last w

/-- `gasEip2929AccountCheck` (operations_acl.go 142-153). -/
def accountGas (m : Mach) (w : World) (a : Addr) : GasRes := if w.warmA a then .ok 0 0 m.last w else .ok 2500 0 m.last (w.warmAddr a)

/-- `gasSLoadEIP2929` (operations_acl.go 104-116). -/
def sloadGas (m : Mach) (w : World) (self : Addr) (k : Word) : GasRes :=
  if w.warmS self k then .ok 100 0 m.last w else .ok 2100 0 m.last (w.warmSlot self k)

/-- `makeGasSStoreFunc` (operations_acl.go 27-97). -/
def sstoreDyn (m : Mach) (w : World) (self : Addr) (gas : Nat) (k v : Word) : GasRes :=
  if gas ≤ 2300 then .fail w
  else if w.warmS self k = false ∧ w.warmA self = false then .panic
  else
    let w1 := if w.warmS self k then w else w.warmSlot self k
    match sstoreGas 4800 (w.warmS self k) (w.committed self k) (w.state self k) v w.refund with
    | none => .panic
    | some (cost, refund) => .ok cost 0 m.last { w1 with refund := refund }

/-- `gasSelfdestructEIP3529` (operations_acl.go 225-245). -/
def selfdestructGas (m : Mach) (w : World) (self b : Addr) : GasRes :=
  let w1 := if w.warmA b then w else w.warmAddr b
  .ok ((if w.warmA b then 0 else 2600) + (if w.empty b ∧ w.balance self ≠ 0 then 25000 else 0)) 0 m.last w1

/-- The gas functions of the calls (gas_table.go 319-407, operations_acl.go 155-188). -/
def callGasDyn (m : Mach) (w : World) (gas size : Nat) (a : Addr) (own : Nat) (asked : Word) : GasRes :=
  let w1 := if w.warmA a then w else w.warmAddr a
  if gas < (if w.warmA a then 0 else 2500) then .fail w1
  else match memoryGasCost m.mem.length m.last size with
    | none => .fail w1
    | some (fee, last) =>
      match callDynGas gas (w.warmA a) own fee asked with
      | none => .fail w1
      | some (cost, child) => .ok cost child last w1

/-- `gasCall`: 25000 for a new account, 9000 for value (gas_table.go 319-338). -/
def callOwn (w : World) (a : Addr) (value : Word) : Nat :=
  (if value ≠ 0#256 ∧ w.empty a then 25000 else 0) + (if value ≠ 0#256 then 9000 else 0)

/-- The dynamic gas of an instruction, after the constant gas was taken; `size` is the memory size rounded up. -/
def dynGas (ctx : Ctx) (m : Mach) (w : World) (gas size : Nat) (op : Op) : GasRes :=
  match op with
  | .exp =>
    match m.stack with
    | _ :: e :: _ => .ok (expGas e) 0 m.last w
    | _ => .panic
  | .keccak =>
    match m.stack with
    | _ :: l :: _ => memGas m w size (wordGas 6 l)
    | _ => .panic
  | .balance | .extcodesize | .extcodehash =>
    match m.stack with
    | a :: _ => accountGas m w (toAddr a)
    | _ => .panic
  | .copy _ =>
    match m.stack with
    | _ :: _ :: l :: _ => memGas m w size (wordGas 3 l)
    | _ => .panic
  | .extcodecopy =>
    match m.stack with
    | a :: _ :: _ :: l :: _ =>
      match memGas m w size (wordGas 3 l) with
      | .ok g _ last _ =>
        if w.warmA (toAddr a) then .ok g 0 last w
        else match safeAdd g 2500 with
          | none => .fail (w.warmAddr (toAddr a))
          | some g => .ok g 0 last (w.warmAddr (toAddr a))
      | r => r
    | _ => .panic
  | .mload | .mstore | .mstore8 | .create | .ret | .revert => memGas m w size some
  | .create2 =>
    match m.stack with
    | _ :: _ :: l :: _ => memGas m w size (wordGas 6 l)
    | _ => .panic
  | .sload =>
    match m.stack with
    | k :: _ => sloadGas m w ctx.self k
    | _ => .panic
  | .sstore =>
    match m.stack with
    | k :: v :: _ => sstoreDyn m w ctx.self gas k v
    | _ => .panic
  | .log n =>
    match m.stack with
    | _ :: l :: _ => memGas m w size (logGas n l)
    | _ => .panic
  | .call .call =>
    match m.stack with
    | g :: a :: v :: _ => callGasDyn m w gas size (toAddr a) (callOwn w (toAddr a) v) g
    | _ => .panic
  | .call .callcode =>
    match m.stack with
    | g :: a :: v :: _ => callGasDyn m w gas size (toAddr a) (if v ≠ 0#256 then 9000 else 0) g
    | _ => .panic
  | .call _ =>
    match m.stack with
    | g :: a :: _ => callGasDyn m w gas size (toAddr a) 0 g
    | _ => .panic
  | .selfdestruct =>
    match m.stack with
    | b :: _ => selfdestructGas m w ctx.self (toAddr b)
    | _ => .panic
  | _ => .ok 0 0 m.last w

/-- A call to be made: kind, gas, address, value, input, where the result goes. -/
structure CallReq where
  kind : CallKind
  addr : Addr
  value : Word
  args : List UInt8
  retOff : Nat
  retSize : Nat

/-- A creation to be made. -/
structure CreateReq where
  value : Word
  code : List UInt8
  salt : Option Word

/-- What an instruction does: go on, go on with a changed state, end, or make a call or a creation and then go on. -/
inductive Exec where
  | cont (m : Mach)
  | contW (m : Mach) (w : World)
  | stop (ret : List UInt8)
  | stopW (w : World)
  | revert (ret : List UInt8)
  | fail
  | panic
  | call (r : CallReq) (m : Mach)
  | create (r : CreateReq) (m : Mach)

/-- The word pushed by an instruction without arguments (instructions.go 242-520, eips.go). -/
def nullOp (env : Env) (ctx : Ctx) (w : World) (gas : Nat) (m : Mach) : NullOp → Word
  | .address => ctx.self.setWidth 256
  | .origin => env.origin.setWidth 256
  | .caller => ctx.caller.setWidth 256
  | .callvalue => BitVec.ofInt 256 ctx.value
  | .calldatasize => BitVec.ofNat 256 ctx.input.length
  | .codesize => BitVec.ofNat 256 ctx.code.length
  | .gasprice => env.gasPrice
  | .returndatasize => BitVec.ofNat 256 m.retData.length
  | .coinbase => env.coinbase.setWidth 256
  | .timestamp => env.time
  | .number => BitVec.ofNat 256 env.number
  | .difficulty => env.difficulty
  | .gaslimit => BitVec.ofNat 256 env.gasLimit
  | .chainid => env.chainId
  | .selfbalance => BitVec.ofInt 256 (w.balance ctx.self)
  | .basefee => env.baseFee
  | .pc => BitVec.ofNat 256 m.pc
  | .msize => BitVec.ofNat 256 m.mem.length
  | .gas => BitVec.ofNat 256 gas
  | .push0 => 0#256

/-- `data[lo:hi]` in Go: `none` is a panic of the runtime. (Up to the capacity Go would give stale bytes instead; that counts as a panic here.) -/
def goSlice (data : List UInt8) (lo hi : Nat) : Option (List UInt8) :=
  if hi < lo ∨ data.length < hi then none else some ((data.drop lo).take (hi - lo))

/-- `opReturnDataCopy` (instructions.go): the slice of the return data, `none` for the error, `some none` for a panic of the runtime. -/
def retSlice (data : List UInt8) (off len : Word) : Option (Option (List UInt8)) :=
  if is64 off = false then none
  else
    let stop := off + len
    if is64 stop = false ∨ data.length < stop.toNat then none
    else some (goSlice data off.toNat stop.toNat)

/-- `opExtCodeHash`: zero for empty accounts. -/
def extCodeHash (env : Env) (w : World) (a : Addr) : Word := if w.empty a then 0#256 else env.keccak (w.code a)

/-- `opBlockhash`. -/
def blockHashOp (env : Env) (n : Word) : Word :=
  if is64 n then
    let lower := if env.number < 257 then 0 else env.number - 256
    if lower ≤ n.toNat ∧ n.toNat < env.number then env.blockHash n.toNat else 0#256
  else 0#256

/-- `makePush`, `opPush1`: the bytes behind the instruction, padded with zeros. -/
def pushData (code : List UInt8) (pc n : Nat) : Word := ofBytes (getData code (pc + 1) n)

/-- Next instruction with this stack, or with this memory. -/
def Mach.next (m : Mach) (stack : List Word) : Mach := { m with pc := m.pc + 1, stack := stack }
def Mach.store (m : Mach) (stack : List Word) (mem : Option (List UInt8)) : Exec :=
  match mem with
  | none => .panic
  | some mem => .cont { m with pc := m.pc + 1, stack := stack, mem := mem }

/-- A jump (instructions.go `opJump`, contract.go 110-128). -/
def jumpTo (ctx : Ctx) (m : Mach) (stack : List Word) (pos : Word) : Exec :=
  match validJumpdest ctx.code pos.toNat with
  | none => .panic
  | some false => .fail
  | some true => .cont { m with pc := pos.toNat, stack := stack }

/-- `makeLog` (instructions.go). -/
def logOp (ctx : Ctx) (m : Mach) (w : World) (n : Nat) : Exec :=
  if ctx.readOnly then .fail
  else match m.stack with
    | o :: l :: rest =>
      if rest.length < n then .panic
      else match memGet m.mem (low64 o) (low64 l) with
        | none => .panic
        | some d => .contW (m.next (rest.drop n)) (w.addLog { address := ctx.self, topics := rest.take n, data := d })
    | _ => .panic

/-- `opCall`, `opCallCode`, `opDelegateCall`, `opStaticCall` up to the call itself (instructions.go). -/
def callOp (ctx : Ctx) (m : Mach) (k : CallKind) : Exec :=
  match k with
  | .call | .callcode =>
    match m.stack with
    | _ :: a :: v :: io :: is :: ro :: rs :: rest =>
      match memGet m.mem (low64 io) (low64 is) with
      | none => .panic
      | some args =>
        if k = .call ∧ ctx.readOnly = true ∧ v ≠ 0#256 then .fail
        else .call { kind := k, addr := toAddr a, value := v, args := args, retOff := low64 ro, retSize := low64 rs } (m.next rest)
    | _ => .panic
  | _ =>
    match m.stack with
    | _ :: a :: io :: is :: ro :: rs :: rest =>
      match memGet m.mem (low64 io) (low64 is) with
      | none => .panic
      | some args => .call { kind := k, addr := toAddr a, value := 0#256, args := args, retOff := low64 ro, retSize := low64 rs } (m.next rest)
    | _ => .panic

/-- `opCreate`, `opCreate2` up to the creation itself (instructions.go). -/
def createOp (ctx : Ctx) (m : Mach) (salted : Bool) : Exec :=
  if ctx.readOnly then .fail
  else match m.stack with
    | v :: o :: l :: rest =>
      match memGet m.mem (low64 o) (low64 l) with
      | none => .panic
      | some code =>
        if salted then
          match rest with
          | s :: rest => .create { value := v, code := code, salt := some s } (m.next rest)
          | _ => .panic
        else .create { value := v, code := code, salt := none } (m.next rest)
    | _ => .panic

/-- The source of a copy instruction: `none` for the error, `some none` for a panic. -/
def copySource (ctx : Ctx) (m : Mach) (o : CopyOp) (off len : Word) : Option (Option (List UInt8)) :=
  match o with
  | .calldata => some (some (getData ctx.input (offset64 off) (low64 len)))
  | .code => some (some (getData ctx.code (offset64 off) (low64 len)))
  | .returndata => retSlice m.retData off len

/-- `operation.execute` (instructions.go), after the memory was resized. -/
def exec (env : Env) (ctx : Ctx) (w : World) (gas : Nat) (m : Mach) (op : Op) : Exec :=
  match op with
  | .stop => .stop []
  | .un o =>
    match m.stack with
    | x :: rest => .cont (m.next (unOp o x :: rest))
    | _ => .panic
  | .bin o =>
    match m.stack with
    | x :: y :: rest => .cont (m.next (binOp o x y :: rest))
    | _ => .panic
  | .tern o =>
    match m.stack with
    | x :: y :: z :: rest => .cont (m.next (ternOp o x y z :: rest))
    | _ => .panic
  | .exp =>
    match m.stack with
    | x :: y :: rest => .cont (m.next (expOp x y :: rest))
    | _ => .panic
  | .keccak =>
    match m.stack with
    | o :: l :: rest =>
      match memGet m.mem (low64 o) (low64 l) with
      | none => .panic
      | some d => .cont (m.next (env.keccak d :: rest))
    | _ => .panic
  | .null o => .cont (m.next (nullOp env ctx w gas m o :: m.stack))
  | .balance =>
    match m.stack with
    | a :: rest => .cont (m.next (BitVec.ofInt 256 (w.balance (toAddr a)) :: rest))
    | _ => .panic
  | .calldataload =>
    match m.stack with
    | o :: rest => .cont (m.next ((if is64 o then ofBytes (getData ctx.input o.toNat 32) else 0#256) :: rest))
    | _ => .panic
  | .copy o =>
    match m.stack with
    | mo :: off :: len :: rest =>
      match copySource ctx m o off len with
      | none => .fail
      | some none => .panic
      | some (some d) => m.store rest (memSet m.mem (low64 mo) (low64 len) d)
    | _ => .panic
  | .extcodesize =>
    match m.stack with
    | a :: rest => .cont (m.next (BitVec.ofNat 256 (w.code (toAddr a)).length :: rest))
    | _ => .panic
  | .extcodecopy =>
    match m.stack with
    | a :: mo :: off :: len :: rest => m.store rest (memSet m.mem (low64 mo) (low64 len) (getData (w.code (toAddr a)) (offset64 off) (low64 len)))
    | _ => .panic
  | .extcodehash =>
    match m.stack with
    | a :: rest => .cont (m.next (extCodeHash env w (toAddr a) :: rest))
    | _ => .panic
  | .blockhash =>
    match m.stack with
    | n :: rest => .cont (m.next (blockHashOp env n :: rest))
    | _ => .panic
  | .pop =>
    match m.stack with
    | _ :: rest => .cont (m.next rest)
    | _ => .panic
  | .mload =>
    match m.stack with
    | o :: rest =>
      match memGet m.mem (low64 o) 32 with
      | none => .panic
      | some d => .cont (m.next (ofBytes d :: rest))
    | _ => .panic
  | .mstore =>
    match m.stack with
    | o :: v :: rest => m.store rest (memSet m.mem (low64 o) 32 (wordBytes v))
    | _ => .panic
  | .mstore8 =>
    match m.stack with
    | o :: v :: rest => m.store rest (memSet m.mem (low64 o) 1 [UInt8.ofNat v.toNat])
    | _ => .panic
  | .sload =>
    match m.stack with
    | k :: rest => .cont (m.next (w.state ctx.self k :: rest))
    | _ => .panic
  | .sstore =>
    if ctx.readOnly then .fail
    else match m.stack with
      | k :: v :: rest => .contW (m.next rest) (w.setState ctx.self k v)
      | _ => .panic
  | .jump =>
    match m.stack with
    | p :: rest => jumpTo ctx m rest p
    | _ => .panic
  | .jumpi =>
    match m.stack with
    | p :: c :: rest => if c = 0#256 then .cont (m.next rest) else jumpTo ctx m rest p
    | _ => .panic
  | .jumpdest => .cont (m.next m.stack)
  | .push n => .cont { m with pc := m.pc + 1 + (n + 1), stack := pushData ctx.code m.pc (n + 1) :: m.stack }
  | .dup n =>
    match m.stack[n]? with
    | some x => .cont (m.next (x :: m.stack))
    | none => .panic
  | .swap n =>
    match m.stack[0]?, m.stack[n + 1]? with
    | some x, some y => .cont (m.next ((m.stack.set 0 y).set (n + 1) x))
    | _, _ => .panic
  | .log n => logOp ctx m w n
  | .create => createOp ctx m false
  | .create2 => createOp ctx m true
  | .call k => callOp ctx m k
  | .ret =>
    match m.stack with
    | o :: l :: _ =>
      match memGet m.mem (low64 o) (low64 l) with
      | none => .panic
      | some d => .stop d
    | _ => .panic
  | .revert =>
    match m.stack with
    | o :: l :: _ =>
      match memGet m.mem (low64 o) (low64 l) with
      | none => .panic
      | some d => .revert d
    | _ => .panic
  | .selfdestruct =>
    if ctx.readOnly then .fail
    else match m.stack with
      | b :: _ => .stopW (w.selfdestruct ctx.self (toAddr b))
      | _ => .panic
  | .invalid =>
    match ctx.code[m.pc]? with
    | some _ => .fail
    | none => .panic

/-- What a round of the loop gives: how the instruction goes on, the gas left, the gas for the callee and the state after the gas function. -/
structure StepRes where
  exec : Exec
  gas : Nat
  child : Nat
  world : World

/-- Charging and executing when the memory size is known (interpreter.go 236-268). -/
def stepSized (env : Env) (ctx : Ctx) (w : World) (gas size : Nat) (m : Mach) (op : Op) : StepRes :=
  match dynGas ctx m w gas size op with
  | .panic => ⟨.panic, gas, 0, w⟩
  | .fail w1 => ⟨.fail, gas, 0, w1⟩
  | .ok cost child last w1 =>
    if gas < cost then ⟨.fail, gas, 0, w1⟩
    else
      let m1 := { m with mem := resize m.mem size, last := last }
      ⟨exec env ctx w1 (gas - cost) m1 op, gas - cost, child, w1⟩

/-- One round of the loop (interpreter.go 196-270). -/
def step (env : Env) (ctx : Ctx) (w : World) (gas : Nat) (m : Mach) : StepRes :=
  let op := decode env.push0 (getOp ctx.code m.pc)
  if m.stack.length < pops op ∨ maxStack op < m.stack.length then ⟨.fail, gas, 0, w⟩
  else if gas < constGas op then ⟨.fail, gas, 0, w⟩
  else match memSize op m.stack with
    | none => ⟨.panic, gas, 0, w⟩
    | some none => ⟨.fail, gas - constGas op, 0, w⟩
    | some (some n) =>
      match safeMul (toWordSize n) 32 with
      | none => ⟨.fail, gas - constGas op, 0, w⟩
      | some size => stepSized env ctx w (gas - constGas op) size m op

/-- A runner for frames. -/
abbrev Runner := Ctx → World → Nat → Mach → Res

/-- A fresh frame. -/
def Mach.init : Mach := { pc := 0, stack := [], mem := [], last := 0, retData := [] }

/-- `Run` (interpreter.go 129-160): nothing to do without code. `depth` is the one of the caller. -/
def runCode (run : Runner) (ctx : Ctx) (w : World) (gas : Nat) : Res :=
  if ctx.code = [] then ⟨.ok, w, gas, []⟩ else run ctx w gas Mach.init

/-- The end of all calls (evm.go 246-258): on an error the state of the snapshot, and no gas unless reverted. -/
def finish (w0 : World) (r : Res) : Res :=
  match r.status with
  | .ok => r
  | .reverted => { r with world := w0 }
  | .fail => { r with world := w0, gas := 0 }
  | .panic => r
  | .outOfFuel => r

def ofPRes (p : PRes) : Res := ⟨if p.ok then .ok else if p.reverted then .reverted else .fail, p.world, p.gas, p.ret⟩

/-- A call refused before it starts: no state change, the gas comes back (evm.go 185-195). -/
def refused (w : World) (gas : Nat) : Res := ⟨.fail, w, gas, []⟩

/-- `Call` (evm.go 180-258). `depth` is `evm.depth`, `readOnly` the mode of the caller. -/
def evmCall (env : Env) (run : Runner) (depth : Nat) (readOnly : Bool) (caller addr : Addr) (input : List UInt8) (gas : Nat) (value : Int) (w : World) : Res :=
  if env.callHook caller addr = false then refused w gas
  else if depth > 1024 then refused w gas
  else if value ≠ 0 ∧ w.balance caller < value then refused w gas
  else if w.exist addr = false ∧ (env.precompile addr).isNone ∧ value = 0 then ⟨.ok, w, gas, []⟩
  else
    let w1 := if w.exist addr then w else w.createAccount addr
    let w2 := w1.transfer caller addr value
    finish w (match env.precompile addr with
      | some p => ofPRes (p caller value input gas false w2)
      | none => runCode run { self := addr, caller := caller, value := value, input := input, code := w2.code addr, depth := depth + 1, readOnly := readOnly } w2 gas)

/-- `CallCode` (evm.go 267-310). -/
def evmCallCode (env : Env) (run : Runner) (depth : Nat) (readOnly : Bool) (caller addr : Addr) (input : List UInt8) (gas : Nat) (value : Int) (w : World) : Res :=
  if env.callHook caller addr = false then refused w gas
  else if depth > 1024 then refused w gas
  else if w.balance caller < value then refused w gas
  else finish w (match env.precompile addr with
    | some p => ofPRes (p caller value input gas true w)
    | none => runCode run { self := caller, caller := caller, value := value, input := input, code := w.code addr, depth := depth + 1, readOnly := readOnly } w gas)

/-- `DelegateCall` (evm.go 317-356): caller and value of the parent. -/
def evmDelegate (env : Env) (run : Runner) (ctx : Ctx) (addr : Addr) (input : List UInt8) (gas : Nat) (w : World) : Res :=
  if env.callHook ctx.self addr = false then refused w gas
  else if ctx.depth > 1024 then refused w gas
  else finish w (match env.precompile addr with
    | some p => ofPRes (p ctx.self 0 input gas true w)
    | none => runCode run { self := ctx.self, caller := ctx.caller, value := ctx.value, input := input, code := w.code addr, depth := ctx.depth + 1, readOnly := ctx.readOnly } w gas)

/-- `StaticCall` (evm.go 362-415): touches the account, runs in read-only mode. -/
def evmStatic (env : Env) (run : Runner) (depth : Nat) (caller addr : Addr) (input : List UInt8) (gas : Nat) (w : World) : Res :=
  if env.callHook caller addr = false then refused w gas
  else if depth > 1024 then refused w gas
  else
    let w1 := w.addBalance addr 0
    finish w (match env.precompile addr with
      | some p => ofPRes (p caller 0 input gas true w1)
      | none => runCode run { self := addr, caller := caller, value := 0, input := input, code := w1.code addr, depth := depth + 1, readOnly := true } w1 gas)

/-- The checks on the returned code and the deposit (evm.go 492-520). -/
def deposit (addr : Addr) (r : Res) : Res :=
  match r.status with
  | .ok =>
    if r.ret.length > 24576 then { r with status := .fail }
    else if r.ret.head? = some 0xEF then { r with status := .fail }
    else if r.gas < r.ret.length * 200 then { r with status := .fail }
    else { r with gas := r.gas - r.ret.length * 200, world := r.world.setCode addr r.ret }
  | _ => r

/-- `create` (evm.go 430-535): the nonce of the creator and the access list keep their change even if the rest fails. -/
def evmCreate (env : Env) (run : Runner) (depth : Nat) (readOnly : Bool) (caller addr : Addr) (code : List UInt8) (gas : Nat) (value : Int) (w : World) : Res :=
  if env.createHook caller = false then refused w gas
  else if depth > 1024 then refused w gas
  else if w.balance caller < value then refused w gas
  else if add64 (w.nonce caller) 1 < w.nonce caller then refused w gas
  else
    let w1 := (w.setNonce caller (add64 (w.nonce caller) 1)).warmAddr addr
    if w1.nonce addr ≠ 0 ∨ w1.code addr ≠ [] then refused w1 0
    else
      let w2 := ((w1.createAccount addr).setNonce addr 1).transfer caller addr value
      finish w1 (deposit addr
        (runCode run { self := addr, caller := caller, value := value, input := [], code := code, depth := depth + 1, readOnly := readOnly } w2 gas))

/-- The four calls with the gas and the stipend (instructions.go). -/
def doCall (env : Env) (run : Runner) (ctx : Ctx) (r : CallReq) (child : Nat) (w : World) : Res :=
  let gas := if r.value = 0#256 then child else add64 child 2300
  match r.kind with
  | .call => evmCall env run ctx.depth ctx.readOnly ctx.self r.addr r.args gas (r.value.toNat : Int) w
  | .callcode => evmCallCode env run ctx.depth ctx.readOnly ctx.self r.addr r.args gas (r.value.toNat : Int) w
  | .delegate => evmDelegate env run ctx r.addr r.args child w
  | .static => evmStatic env run ctx.depth ctx.self r.addr r.args child w

/-- After a call (instructions.go `opCall` and the others): the flag on the stack, the result in memory, the gas back. `none` is a panic. -/
def afterCall (m : Mach) (r : CallReq) (res : Res) : Option Mach :=
  let stack := ofBool (res.status == .ok) :: m.stack
  if res.status = .ok ∨ res.status = .reverted then
    match memSet m.mem r.retOff r.retSize res.ret with
    | none => none
    | some mem => some { m with stack := stack, mem := mem, retData := res.ret }
  else some { m with stack := stack, retData := res.ret }

/-- After a creation (instructions.go `opCreate`): the address or zero; return data only of a revert. -/
def afterCreate (m : Mach) (addr : Addr) (res : Res) : Mach :=
  { m with
    stack := (if res.status = .ok then addr.setWidth 256 else 0#256) :: m.stack
    retData := if res.status = .reverted then res.ret else [] }

/-- The address of a creation (evm.go 538-560). -/
def createAddress (env : Env) (self : Addr) (w : World) (r : CreateReq) : Addr :=
  match r.salt with
  | none => env.createAddr self (w.nonce self)
  | some s => env.create2Addr self s r.code

/-- The loop of `Run` (interpreter.go 190-278), with fuel. -/
def run (env : Env) : Nat → Runner
  | 0, _, w, gas, _ => ⟨.outOfFuel, w, gas, []⟩
  | fuel + 1, ctx, w, gas, m =>
    let s := step env ctx w gas m
    match s.exec with
    | .cont m' => run env fuel ctx s.world s.gas m'
    | .contW m' w' => run env fuel ctx w' s.gas m'
    | .stop ret => ⟨.ok, s.world, s.gas, ret⟩
    | .stopW w' => ⟨.ok, w', s.gas, []⟩
    | .revert ret => ⟨.reverted, s.world, s.gas, ret⟩
    | .fail => ⟨.fail, s.world, s.gas, []⟩
    | .panic => ⟨.panic, s.world, s.gas, []⟩
    | .call r m' =>
      let res := doCall env (run env fuel) ctx r s.child s.world
      if res.status = .panic ∨ res.status = .outOfFuel then res
      else match afterCall m' r res with
        | none => ⟨.panic, res.world, s.gas, []⟩
        | some m'' => run env fuel ctx res.world (add64 s.gas res.gas) m''
    | .create r m' =>
      let gas := s.gas - s.gas / 64
      let addr := createAddress env ctx.self s.world r
      let res := evmCreate env (run env fuel) ctx.depth ctx.readOnly ctx.self addr r.code gas (r.value.toNat : Int) s.world
      if res.status = .panic ∨ res.status = .outOfFuel then res
      else run env fuel ctx res.world (add64 (s.gas - gas) res.gas) (afterCreate m' addr res)

end VM
