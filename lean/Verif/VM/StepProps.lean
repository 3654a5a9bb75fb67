import Verif.VM.MemLemmas
import Verif.VM.AnalysisProps
/-!
# What each instruction does (C72)

An instruction whose gas is paid does exactly what its description says: which words it takes and puts, which bytes of memory, which slot, balance or log
it changes, where execution goes on, and when it fails.
-/
namespace VM

/-! ### Specification -/

/-- What is given to an instruction: position, stack (top first), memory as an unbounded row of bytes and its size, result of the last call. -/
structure View where
  pc : Nat
  stack : List Word
  mem : Nat → UInt8
  size : Nat
  ret : List UInt8

/-- Execution goes on at `pc` with this stack and this memory, and the same return data. -/
def Goes (v : View) (m' : Mach) (pc : Nat) (stack : List Word) (mem : Nat → UInt8) : Prop :=
  m'.pc = pc ∧ m'.stack = stack ∧ (∀ i, byteAt m'.mem i = mem i) ∧ m'.retData = v.ret

def Cont (v : View) (e : Exec) (pc : Nat) (stack : List Word) (mem : Nat → UInt8) : Prop := ∃ m', e = .cont m' ∧ Goes v m' pc stack mem

/-- One word more on the rest of the stack, then the next instruction. -/
def Puts (v : View) (e : Exec) (rest : List Word) (x : Word) : Prop := Cont v e (v.pc + 1) (x :: rest) v.mem

/-- `len` bytes of the row `src` from `from` on are written to `to`. -/
def Writes (v : View) (e : Exec) (rest : List Word) (dst len : Nat) (src : Nat → UInt8) : Prop :=
  Cont v e (v.pc + 1) rest (fun i => if dst ≤ i ∧ i < dst + len then src (i - dst) else v.mem i)

/-- Words of the environment. -/
def specNull (env : Env) (ctx : Ctx) (w : World) (gas : Nat) (v : View) : NullOp → Word
  | .address => wordN ctx.self.toNat | .origin => wordN env.origin.toNat | .caller => wordN ctx.caller.toNat | .callvalue => wordZ ctx.value
  | .calldatasize => wordN ctx.input.length | .codesize => wordN ctx.code.length | .gasprice => env.gasPrice | .returndatasize => wordN v.ret.length
  | .coinbase => wordN env.coinbase.toNat | .timestamp => env.time | .number => wordN env.number | .difficulty => env.difficulty
  | .gaslimit => wordN env.gasLimit | .chainid => env.chainId | .selfbalance => wordZ (w.balance ctx.self) | .basefee => env.baseFee
  | .pc => wordN v.pc | .msize => wordN v.size | .gas => wordN gas | .push0 => wordN 0

/-- The address in a word: its low 20 bytes. -/
def addrOf (x : Word) : Addr := BitVec.ofNat 160 (x.toNat % 2 ^ 160)

/-- A position a jump may go to. -/
def Target (code : List UInt8) (p : Nat) : Prop := code[p]? = some 0x5b ∧ Starts code p

/-- The second state is the first with one slot changed. -/
structure Stored (w w' : World) (a : Addr) (k x : Word) : Prop where
  state : ∀ b j, w'.state b j = if b = a ∧ j = k then x else w.state b j
  balance : ∀ b, w'.balance b = w.balance b
  nonce : ∀ b, w'.nonce b = w.nonce b
  code : ∀ b, w'.code b = w.code b
  suicided : ∀ b, w'.suicided b = w.suicided b
  logs : w'.logs = w.logs

/-- The second state is the first with one log more. -/
structure Logged (w w' : World) (l : LogEntry) : Prop where
  logs : w'.logs = w.logs ++ [l]
  accts : w'.accts = w.accts
  store : w'.store = w.store

/-- The second state is the first after the destruction of `a` in favour of `b`. -/
structure Destroyed (w w' : World) (a b : Addr) : Prop where
  balance : ∀ c, w'.balance c = if c = a then 0 else if c = b then w.balance b + w.balance a else w.balance c
  suicided : ∀ c, w'.suicided c = if c = a then w.exist a || decide (a = b) else w.suicided c
  state : ∀ c j, w'.state c j = w.state c j
  logs : w'.logs = w.logs

/-- The call an instruction asks for. -/
def Calls (v : View) (e : Exec) (k : CallKind) (a x : Word) (io is ro rs : Nat) (rest : List Word) : Prop :=
  ∃ r m', e = .call r m' ∧ r.kind = k ∧ r.addr = addrOf a ∧ r.value = x ∧ r.args = piece v.mem io is ∧ r.retSize = rs ∧ (rs ≠ 0 → r.retOff = ro) ∧
    Goes v m' (v.pc + 1) rest v.mem

def Creates (v : View) (e : Exec) (x : Word) (o l : Nat) (salt : Option Word) (rest : List Word) : Prop :=
  ∃ r m', e = .create r m' ∧ r.value = x ∧ r.code = piece v.mem o l ∧ r.salt = salt ∧ Goes v m' (v.pc + 1) rest v.mem

/-- What each instruction does. -/
def Post (env : Env) (ctx : Ctx) (w : World) (gas : Nat) (v : View) : Op → Exec → Prop
  | .stop, e => e = .stop []
  | .un o, e => ∃ x rest, v.stack = x :: rest ∧ Puts v e rest (specUn o x)
  | .bin o, e => ∃ x y rest, v.stack = x :: y :: rest ∧ Puts v e rest (specBin o x y)
  | .tern o, e => ∃ x y z rest, v.stack = x :: y :: z :: rest ∧ Puts v e rest (specTern o x y z)
  | .exp, e => ∃ x y rest, v.stack = x :: y :: rest ∧ Puts v e rest (specExp x y)
  | .keccak, e => ∃ o l rest, v.stack = o :: l :: rest ∧ Puts v e rest (env.keccak (piece v.mem o.toNat l.toNat))
  | .null o, e => Puts v e v.stack (specNull env ctx w gas v o)
  | .balance, e => ∃ a rest, v.stack = a :: rest ∧ Puts v e rest (wordZ (w.balance (addrOf a)))
  | .calldataload, e => ∃ o rest, v.stack = o :: rest ∧ Puts v e rest (wordOf (piece (byteAt ctx.input) o.toNat 32))
  | .copy .calldata, e => ∃ dst src len rest, v.stack = dst :: src :: len :: rest ∧
      Writes v e rest dst.toNat len.toNat (fun i => byteAt ctx.input (src.toNat + i))
  | .copy .code, e => ∃ dst src len rest, v.stack = dst :: src :: len :: rest ∧
      Writes v e rest dst.toNat len.toNat (fun i => byteAt ctx.code (src.toNat + i))
  | .copy .returndata, e => ∃ dst src len rest, v.stack = dst :: src :: len :: rest ∧
      if src.toNat + len.toNat ≤ v.ret.length then Writes v e rest dst.toNat len.toNat (fun i => byteAt v.ret (src.toNat + i)) else e = .fail
  | .extcodesize, e => ∃ a rest, v.stack = a :: rest ∧ Puts v e rest (wordN (w.code (addrOf a)).length)
  | .extcodecopy, e => ∃ a dst src len rest, v.stack = a :: dst :: src :: len :: rest ∧
      Writes v e rest dst.toNat len.toNat (fun i => byteAt (w.code (addrOf a)) (src.toNat + i))
  | .extcodehash, e => ∃ a rest, v.stack = a :: rest ∧
      Puts v e rest (if w.nonce (addrOf a) = 0 ∧ w.balance (addrOf a) = 0 ∧ w.code (addrOf a) = [] then wordN 0 else env.keccak (w.code (addrOf a)))
  | .blockhash, e => ∃ n rest, v.stack = n :: rest ∧
      Puts v e rest (if n.toNat < env.number ∧ env.number ≤ n.toNat + 256 then env.blockHash n.toNat else wordN 0)
  | .pop, e => ∃ x rest, v.stack = x :: rest ∧ Cont v e (v.pc + 1) rest v.mem
  | .mload, e => ∃ o rest, v.stack = o :: rest ∧ Puts v e rest (wordOf (piece v.mem o.toNat 32))
  | .mstore, e => ∃ o x rest, v.stack = o :: x :: rest ∧ Writes v e rest o.toNat 32 (byteOf x)
  | .mstore8, e => ∃ o x rest, v.stack = o :: x :: rest ∧ Writes v e rest o.toNat 1 (fun _ => UInt8.ofNat (x.toNat % 256))
  | .sload, e => ∃ k rest, v.stack = k :: rest ∧ Puts v e rest (w.state ctx.self k)
  | .sstore, e => ∃ k x rest, v.stack = k :: x :: rest ∧
      if ctx.readOnly then e = .fail
      else ∃ m' w', e = .contW m' w' ∧ Goes v m' (v.pc + 1) rest v.mem ∧ Stored w w' ctx.self k x
  | .jump, e => ∃ p rest, v.stack = p :: rest ∧
      (Target ctx.code p.toNat → Cont v e p.toNat rest v.mem) ∧ (¬ Target ctx.code p.toNat → e = .fail)
  | .jumpi, e => ∃ p c rest, v.stack = p :: c :: rest ∧ (c.toNat = 0 → Cont v e (v.pc + 1) rest v.mem) ∧
      (c.toNat ≠ 0 → (Target ctx.code p.toNat → Cont v e p.toNat rest v.mem) ∧ (¬ Target ctx.code p.toNat → e = .fail))
  | .jumpdest, e => Cont v e (v.pc + 1) v.stack v.mem
  | .push n, e => Cont v e (v.pc + 1 + (n + 1)) (wordOf (piece (byteAt ctx.code) (v.pc + 1) (n + 1)) :: v.stack) v.mem
  | .dup n, e => ∃ x, v.stack[n]? = some x ∧ Puts v e v.stack x
  | .swap n, e => ∃ st, (∀ i, st[i]? = v.stack[if i = 0 then n + 1 else if i = n + 1 then 0 else i]?) ∧ Cont v e (v.pc + 1) st v.mem
  | .log n, e => ∃ o l topics rest, v.stack = o :: l :: (topics ++ rest) ∧ topics.length = n ∧
      if ctx.readOnly then e = .fail
      else ∃ m' w', e = .contW m' w' ∧ Goes v m' (v.pc + 1) rest v.mem ∧
        Logged w w' { address := ctx.self, topics := topics, data := piece v.mem o.toNat l.toNat }
  | .create, e => ∃ x o l rest, v.stack = x :: o :: l :: rest ∧ if ctx.readOnly then e = .fail else Creates v e x o.toNat l.toNat none rest
  | .create2, e => ∃ x o l s rest, v.stack = x :: o :: l :: s :: rest ∧ if ctx.readOnly then e = .fail else Creates v e x o.toNat l.toNat (some s) rest
  | .call .call, e => ∃ g a x io is ro rs rest, v.stack = g :: a :: x :: io :: is :: ro :: rs :: rest ∧
      if ctx.readOnly = true ∧ x.toNat ≠ 0 then e = .fail else Calls v e .call a x io.toNat is.toNat ro.toNat rs.toNat rest
  | .call .callcode, e => ∃ g a x io is ro rs rest, v.stack = g :: a :: x :: io :: is :: ro :: rs :: rest ∧
      Calls v e .callcode a x io.toNat is.toNat ro.toNat rs.toNat rest
  | .call k, e => ∃ g a io is ro rs rest, v.stack = g :: a :: io :: is :: ro :: rs :: rest ∧
      Calls v e k a (wordN 0) io.toNat is.toNat ro.toNat rs.toNat rest
  | .ret, e => ∃ o l rest, v.stack = o :: l :: rest ∧ e = .stop (piece v.mem o.toNat l.toNat)
  | .revert, e => ∃ o l rest, v.stack = o :: l :: rest ∧ e = .revert (piece v.mem o.toNat l.toNat)
  | .selfdestruct, e => ∃ b rest, v.stack = b :: rest ∧
      if ctx.readOnly then e = .fail else ∃ w', e = .stopW w' ∧ Destroyed w w' ctx.self (addrOf b)
  | .invalid, e => e = .fail

/-- An instruction is charged for: there are enough words, room for the result, and gas for the constant and the dynamic part. -/
def Charged (ctx : Ctx) (w : World) (gas : Nat) (m : Mach) (op : Op) (gas' : Nat) (size : Nat) : Prop :=
  pops op ≤ m.stack.length ∧ m.stack.length ≤ maxStack op ∧ constGas op ≤ gas ∧
  ∃ n cost child last w1, memSize op m.stack = some (some n) ∧ safeMul (toWordSize n) 32 = some size ∧
    dynGas ctx m w (gas - constGas op) size op = .ok cost child last w1 ∧ constGas op + cost ≤ gas ∧ gas' = gas - constGas op - cost

/-! ### Proof -/

theorem puts_next {v : View} {m : Mach} {rest : List Word} {x y : Word} (h1 : m.pc = v.pc) (h2 : byteAt m.mem = v.mem) (h3 : m.retData = v.ret) (h : x = y) :
    Puts v (.cont (m.next (x :: rest))) rest y :=
  ⟨_, rfl, by show m.pc + 1 = _; rw [h1], by rw [h]; rfl, fun i => by rw [← h2]; rfl, h3⟩

theorem setWidth_wordN (a : Addr) : a.setWidth 256 = wordN a.toNat := by
  apply BitVec.eq_of_toNat_eq
  unfold wordN
  rw [BitVec.toNat_setWidth, BitVec.toNat_ofNat]

theorem toAddr_addrOf (x : Word) : toAddr x = addrOf x := by
  apply BitVec.eq_of_toNat_eq
  unfold toAddr addrOf
  rw [BitVec.toNat_setWidth, BitVec.toNat_ofNat, Nat.mod_mod]

theorem offset_piece {d : List UInt8} {off : Word} {len : Nat} (hd : d.length < 2 ^ 64) : getData d (offset64 off) len = piece (byteAt d) off.toNat len := by
  rw [getData_piece]
  unfold offset64 is64
  by_cases h : off.toNat < 2 ^ 64
  · rw [if_pos (decide_eq_true h)]
  · rw [if_neg (by rw [decide_eq_true_iff]; exact h)]
    have h0 : ∀ i, d.length ≤ i → byteAt d i = 0 := by
      intro i hi
      unfold byteAt
      rw [List.getElem?_eq_none_iff.2 hi]
      rfl
    unfold piece
    apply List.map_congr_left
    intro j _
    generalize (2 : Nat) ^ 64 = B at *
    rw [h0 _ (by omega), h0 _ (by omega)]

theorem load_word {d : List UInt8} (hd : d.length < 2 ^ 64) (x : Word) :
    (if is64 x then ofBytes (getData d x.toNat 32) else 0#256) = wordOf (piece (byteAt d) x.toNat 32) := by
  have ho := offset_piece (off := x) (len := 32) hd
  unfold offset64 at ho
  by_cases hx : is64 x = true
  · rw [if_pos hx] at ho ⊢
    rw [ofBytes_wordOf, ho]
  · rw [if_neg hx] at ho ⊢
    rw [← ho]
    have h0 : getData d (2 ^ 64 - 1) 32 = List.replicate 32 0 := by
      unfold getData
      rw [List.drop_of_length_le (by omega)]
      rfl
    rw [h0]
    decide +kernel

theorem writes_store {v : View} {m : Mach} {rest : List Word} {o : Word} {len n : Nat} {d : List UInt8} {src : Nat → UInt8} (h1 : m.pc = v.pc) (h2 : byteAt m.mem = v.mem)
    (h3 : m.retData = v.ret) (hl : len < 2 ^ 64) (h : calcMemSizeLen o len = some n) (hn : n ≤ m.mem.length) (hd : d.length = len) (hs : ∀ i, i < len → byteAt d i = src i) :
    Writes v (m.store rest (memSet m.mem (low64 o) len d)) rest o.toNat len src := by
  obtain ⟨R, hR, hb⟩ := memSet_bytes (value := d) hl h hn hd
  rw [hR]
  refine ⟨_, rfl, by show m.pc + 1 = _; rw [h1], rfl, ?_, h3⟩
  intro i
  show byteAt R i = _
  rw [hb i, ← h2]
  dsimp only
  split
  · rw [hs _ (by omega)]
  · rfl

theorem size_len {o l : Word} {n : Nat} (h : calcMemSize o l = some n) : l.toNat < 2 ^ 64 ∧ low64 l = l.toNat ∧ calcMemSizeLen o l.toNat = some n := by
  unfold calcMemSize at h
  split at h
  · rename_i h1
    have h1 := of_decide_eq_true h1
    exact ⟨h1, Nat.mod_eq_of_lt h1, h⟩
  · cases h

theorem get_piece {m : Mach} {v : View} {o l : Word} {n : Nat} (h : calcMemSize o l = some n) (hn : n ≤ m.mem.length) (hb : m.mem.length ≤ 0x1FFFFFFFE0)
    (h2 : byteAt m.mem = v.mem) : memGet m.mem (low64 o) (low64 l) = some (piece v.mem o.toNat l.toNat) := by
  obtain ⟨a, b, c⟩ := size_len h
  rw [b, memGet_piece a c hn hb, h2]

theorem both_len {ro rs io is : Word} {n : Nat} (h : (match calcMemSize ro rs, calcMemSize io is with | some x, some y => some (if x > y then x else y) | _, _ => none) = some n) :
    ∃ x y, calcMemSize ro rs = some x ∧ calcMemSize io is = some y ∧ x ≤ n ∧ y ≤ n := by
  cases h1 : calcMemSize ro rs with
  | none => rw [h1] at h; cases h
  | some x =>
    cases h2 : calcMemSize io is with
    | none => rw [h1, h2] at h; cases h
    | some y =>
      rw [h1, h2] at h
      injection h with h
      refine ⟨x, y, rfl, rfl, ?_, ?_⟩ <;> split at h <;> omega

theorem retSlice_spec {d : List UInt8} {off len : Word} (hl : len.toNat < 2 ^ 64) (hd : d.length < 2 ^ 64) :
    retSlice d off len = if off.toNat + len.toNat ≤ d.length then some (some (piece (byteAt d) off.toNat len.toNat)) else none := by
  have h64 : (2 : Nat) ^ 64 = 18446744073709551616 := by decide
  unfold retSlice is64
  by_cases h : off.toNat < 2 ^ 64
  · rw [if_neg (by rw [decide_eq_false_iff_not]; exact fun c => c h)]
    have e : (off + len).toNat = off.toNat + len.toNat := by
      rw [BitVec.toNat_add, Nat.mod_eq_of_lt]
      have : (2 : Nat) ^ 65 < 2 ^ 256 := by decide
      rw [show (2 : Nat) ^ 65 = 36893488147419103232 by decide] at this
      rw [h64] at h hl
      omega
    dsimp only
    rw [e]
    by_cases h2 : off.toNat + len.toNat ≤ d.length
    · rw [if_pos h2, if_neg]
      · unfold goSlice
        rw [if_neg (by omega), Nat.add_sub_cancel_left, take_drop_piece h2]
      · rw [decide_eq_false_iff_not]
        rw [h64] at *
        omega
    · rw [if_neg h2, if_pos (by omega)]
  · rw [if_pos (by rw [decide_eq_false_iff_not]; exact h), if_neg (by rw [h64] at *; omega)]

theorem stored {w w1 : World} (hw : Warms w w1) (ha : ∀ a k, w.acct a = none → w.store a k = 0#256) (self : Addr) (k x : Word) : Stored w (w1.setState self k x) self k x := by
  have hacct : ∀ b, (w1.setState self k x).acct b = if b = self then some { (w.acct self).getD {} with dirty := KV.set ((w.acct self).getD {}).dirty k x } else w.acct b := by
    intro b
    unfold World.setState
    rw [acct_modify, hw.acct, hw.acct]
  have hst : (w1.setState self k x).store = w.store := hw.store
  refine ⟨?_, ?_, ?_, ?_, ?_, hw.logs⟩
  · intro b j
    unfold World.state
    rw [hacct, hst]
    by_cases e : b = self
    · subst e
      rw [if_pos rfl]
      dsimp only
      rw [KV.get_set]
      by_cases e2 : j = k
      · rw [if_pos e2, if_pos ⟨rfl, e2⟩]; rfl
      · rw [if_neg e2, if_neg (fun h => e2 h.2)]
        cases hc : w.acct b with
        | none => exact ha b j hc
        | some c => rfl
    · rw [if_neg e, if_neg (fun h => e h.1)]
  all_goals
    intro b
    first
      | unfold World.balance
      | unfold World.nonce
      | unfold World.code
      | unfold World.suicided
    rw [hacct]
    by_cases e : b = self
    · subst e
      rw [if_pos rfl]
      cases w.acct b <;> rfl
    · rw [if_neg e]

theorem destroyed {w w1 : World} (hw : Warms w w1) (ha : ∀ a k, w.acct a = none → w.store a k = 0#256) (self b : Addr) : Destroyed w (w1.selfdestruct self b) self b := by
  have hmod : ∀ c, (w1.addBalance b (w1.balance self)).acct c = if c = b then some { (w.acct b).getD {} with balance := ((w.acct b).getD {}).balance + w.balance self } else w.acct c := by
    intro c
    unfold World.addBalance
    rw [acct_modify, hw.acct, hw.acct, hw.balance]
  have hsui : ∀ c, (w1.selfdestruct self b).acct c = if c = self then ((w1.addBalance b (w1.balance self)).acct self).map (fun d => { d with balance := 0, suicided := true })
      else (w1.addBalance b (w1.balance self)).acct c := by
    intro c
    unfold World.selfdestruct
    dsimp only
    have hs2 : ∀ u : World, (u.suicide self).acct c = if c = self then (u.acct self).map (fun d => { d with balance := 0, suicided := true }) else u.acct c := by
      intro u
      unfold World.suicide
      cases hu : u.acct self with
      | none =>
        dsimp only
        by_cases e : c = self
        · rw [if_pos e, e, hu]; rfl
        · rw [if_neg e]
      | some d =>
        show KV.get (KV.set u.accts self _) c = _
        rw [KV.get_set]
        rfl
    split
    · exact hs2 _
    · exact hs2 _
  have hstore : (w1.selfdestruct self b).store = w.store := by
    have : ∀ u : World, (u.suicide self).store = u.store := by
      intro u; unfold World.suicide; split <;> rfl
    unfold World.selfdestruct
    dsimp only
    split
    · exact (this _).trans hw.store
    · exact (this _).trans hw.store
  have hlogs : (w1.selfdestruct self b).logs = w.logs := by
    have : ∀ u : World, (u.suicide self).logs = u.logs := by
      intro u; unfold World.suicide; split <;> rfl
    unfold World.selfdestruct
    dsimp only
    split
    · exact (this _).trans hw.logs
    · exact (this _).trans hw.logs
  refine ⟨?_, ?_, ?_, hlogs⟩
  · intro c
    unfold World.balance
    rw [hsui]
    by_cases e : c = self
    · rw [if_pos e, if_pos e]
      cases (w1.addBalance b (w1.balance self)).acct self <;> rfl
    · rw [if_neg e, if_neg e, hmod]
      by_cases e2 : c = b
      · rw [if_pos e2, if_pos e2]
        unfold World.balance
        cases w.acct b <;> rfl
      · rw [if_neg e2, if_neg e2]
  · intro c
    unfold World.suicided
    rw [hsui]
    by_cases e : c = self
    · rw [if_pos e, if_pos e, hmod]
      by_cases e2 : self = b
      · rw [if_pos e2, decide_eq_true e2]
        cases w.exist self <;> rfl
      · rw [if_neg e2, decide_eq_false e2]
        unfold World.exist
        cases w.acct self <;> rfl
    · rw [if_neg e, if_neg e, hmod]
      by_cases e2 : c = b
      · rw [if_pos e2, e2]
        cases w.acct b <;> rfl
      · rw [if_neg e2]
  · intro c j
    unfold World.state
    rw [hsui, hstore]
    have hx : ∀ c, (match (w1.addBalance b (w1.balance self)).acct c with | none => 0#256 | some d => (KV.get d.dirty j).getD (w.store c j)) =
        (match w.acct c with | none => 0#256 | some d => (KV.get d.dirty j).getD (w.store c j)) := by
      intro c
      rw [hmod]
      by_cases e2 : c = b
      · rw [if_pos e2, e2]
        cases hb : w.acct b with
        | none => exact ha b j hb
        | some d => rfl
      · rw [if_neg e2]
    by_cases e : c = self
    · rw [if_pos e, e]
      refine Eq.trans ?_ (hx self)
      cases (w1.addBalance b (w1.balance self)).acct self <;> rfl
    · rw [if_neg e]
      exact hx c

theorem jump_spec {ctx : Ctx} {m : Mach} {v : View} {rest : List Word} {p : Word} (hc : ctx.code.length < 2 ^ 64) (h1 : byteAt m.mem = v.mem) (h2 : m.retData = v.ret) :
    (Target ctx.code p.toNat → Cont v (jumpTo ctx m rest p) p.toNat rest v.mem) ∧ (¬ Target ctx.code p.toNat → jumpTo ctx m rest p = .fail) := by
  obtain ⟨b, hb, hj⟩ := jump_accepted_iff ctx.code hc p.toNat
  unfold jumpTo
  rw [hb]
  cases b with
  | true => exact ⟨fun _ => ⟨_, rfl, rfl, rfl, fun i => by rw [← h1], h2⟩, fun h => absurd (hj.1 rfl) h⟩
  | false => exact ⟨fun h => (by cases hj.2 h), fun _ => rfl⟩

theorem empty_iff (w : World) (a : Addr) : w.empty a = true ↔ w.nonce a = 0 ∧ w.balance a = 0 ∧ w.code a = [] := by
  unfold World.empty World.nonce World.balance World.code
  cases w.acct a with
  | none => simp
  | some c => simp [and_assoc]

/-- The bounds on sizes: inputs, code and results of calls are shorter than `2^64` bytes, and the block number fits. -/
structure Sized (env : Env) (ctx : Ctx) (w : World) (ret : List UInt8) : Prop where
  input : ctx.input.length < 2 ^ 64
  code : ctx.code.length < 2 ^ 64
  codes : ∀ a, (w.code a).length < 2 ^ 64
  ret : ret.length < 2 ^ 64
  number : env.number < 2 ^ 64
  absent : ∀ a k, w.acct a = none → w.store a k = 0#256

theorem exec_correct {env : Env} {ctx : Ctx} {w w1 : World} {gas n : Nat} {m : Mach} {v : View} {op : Op} (hw : Warms w w1) (hz : Sized env ctx w m.retData)
    (hp : pops op ≤ m.stack.length) (hsz : memSize op m.stack = some (some n)) (hn : n ≤ m.mem.length) (hb : m.mem.length ≤ 0x1FFFFFFFE0)
    (hop : op = .invalid → ∃ b, ctx.code[m.pc]? = some b)
    (h1 : m.pc = v.pc) (h2 : byteAt m.mem = v.mem) (h3 : m.retData = v.ret) (h4 : m.stack = v.stack) (h5 : m.mem.length = v.size ∨ ∀ o, op = .null o → o ≠ .msize) :
    Post env ctx w gas v op (exec env ctx w1 gas m op) := by
  have hgoes : ∀ rest, Goes v (m.next rest) (v.pc + 1) rest v.mem := fun rest => ⟨by show m.pc + 1 = _; rw [h1], rfl, fun i => by rw [← h2]; rfl, h3⟩
  cases op with
  | stop => rfl
  | un o =>
    obtain ⟨x0, rest, hst⟩ := stack1 hp
    simp only [exec, hst]
    exact ⟨x0, rest, by rw [← h4, hst], puts_next h1 h2 h3 (unOp_correct _ _)⟩
  | bin o =>
    obtain ⟨x0, x1, rest, hst⟩ := stack2 hp
    simp only [exec, hst]
    exact ⟨x0, x1, rest, by rw [← h4, hst], puts_next h1 h2 h3 (binOp_correct _ _ _)⟩
  | tern o =>
    obtain ⟨x0, x1, x2, rest, hst⟩ := stack3 hp
    simp only [exec, hst]
    exact ⟨x0, x1, x2, rest, by rw [← h4, hst], puts_next h1 h2 h3 (ternOp_correct _ _ _ _)⟩
  | exp =>
    obtain ⟨x0, x1, rest, hst⟩ := stack2 hp
    simp only [exec, hst]
    exact ⟨x0, x1, rest, by rw [← h4, hst], puts_next h1 h2 h3 (expOp_correct _ _)⟩
  | keccak =>
    obtain ⟨x0, x1, rest, hst⟩ := stack2 hp
    rw [hst] at hsz
    simp only [exec, hst]
    rw [get_piece (Option.some.inj hsz) hn hb h2]
    exact ⟨x0, x1, rest, by rw [← h4, hst], puts_next h1 h2 h3 rfl⟩
  | null o =>
    simp only [exec]
    show Puts v _ _ _
    rw [← h4]
    refine puts_next h1 h2 h3 ?_
    cases o
    case address => exact setWidth_wordN _
    case origin => exact setWidth_wordN _
    case caller => exact setWidth_wordN _
    case coinbase => exact setWidth_wordN _
    case selfbalance => show wordZ (w1.balance _) = wordZ _; rw [hw.balance]
    case returndatasize => show wordN m.retData.length = wordN _; rw [h3]
    case pc => show wordN m.pc = wordN _; rw [h1]
    case msize =>
      rcases h5 with h | h
      · show wordN m.mem.length = wordN _; rw [h]
      · exact absurd rfl (h _ rfl)
    all_goals rfl
  | balance =>
    obtain ⟨x0, rest, hst⟩ := stack1 hp
    simp only [exec, hst]
    refine ⟨x0, rest, by rw [← h4, hst], puts_next h1 h2 h3 ?_⟩
    rw [hw.balance, toAddr_addrOf]; rfl
  | calldataload =>
    obtain ⟨x0, rest, hst⟩ := stack1 hp
    simp only [exec, hst]
    refine ⟨x0, rest, by rw [← h4, hst], puts_next h1 h2 h3 ?_⟩
    exact load_word hz.input x0
  | copy o =>
    obtain ⟨x0, x1, x2, rest, hst⟩ := stack3 hp
    rw [hst] at hsz
    obtain ⟨a, b, c⟩ := size_len (Option.some.inj hsz)
    have hw2 : ∀ d : List UInt8, Writes v (m.store rest (memSet m.mem (low64 x0) x2.toNat (piece (byteAt d) x1.toNat x2.toNat))) rest x0.toNat x2.toNat (fun i => byteAt d (x1.toNat + i)) := by
      intro d
      refine writes_store h1 h2 h3 a c hn (piece_length _ _ _) ?_
      intro i hi
      rw [byteAt_piece, if_pos hi]
    simp only [exec, hst]
    cases o with
    | calldata =>
      simp only [copySource]
      rw [b, offset_piece hz.input]
      exact ⟨x0, x1, x2, rest, by rw [← h4, hst], hw2 _⟩
    | code =>
      simp only [copySource]
      rw [b, offset_piece hz.code]
      exact ⟨x0, x1, x2, rest, by rw [← h4, hst], hw2 _⟩
    | returndata =>
      simp only [copySource]
      rw [b, retSlice_spec a hz.ret]
      refine ⟨x0, x1, x2, rest, by rw [← h4, hst], ?_⟩
      rw [← h3]
      split
      · exact hw2 _
      · rfl
  | extcodesize =>
    obtain ⟨x0, rest, hst⟩ := stack1 hp
    simp only [exec, hst]
    refine ⟨x0, rest, by rw [← h4, hst], puts_next h1 h2 h3 ?_⟩
    unfold World.code
    rw [hw.acct, toAddr_addrOf]; rfl
  | extcodecopy =>
    obtain ⟨x0, x1, x2, x3, rest, hst⟩ := stack4 hp
    rw [hst] at hsz
    obtain ⟨a, b, c⟩ := size_len (Option.some.inj hsz)
    have hcode : ∀ a, w1.code a = w.code a := fun a => by unfold World.code; rw [hw.acct]
    simp only [exec, hst]
    rw [b, hcode, toAddr_addrOf, offset_piece (hz.codes _)]
    refine ⟨x0, x1, x2, x3, rest, by rw [← h4, hst], writes_store h1 h2 h3 a c hn (piece_length _ _ _) ?_⟩
    intro i hi
    rw [byteAt_piece, if_pos hi]
  | extcodehash =>
    obtain ⟨x0, rest, hst⟩ := stack1 hp
    simp only [exec, hst]
    refine ⟨x0, rest, by rw [← h4, hst], puts_next h1 h2 h3 ?_⟩
    have hcode : ∀ a, w1.code a = w.code a := fun a => by unfold World.code; rw [hw.acct]
    have hemp : ∀ a, w1.empty a = w.empty a := fun a => by unfold World.empty; rw [hw.acct]
    unfold extCodeHash
    rw [hcode, hemp, toAddr_addrOf]
    by_cases he : w.empty (addrOf x0) = true
    · rw [if_pos he, if_pos ((empty_iff _ _).1 he)]; rfl
    · rw [if_neg he, if_neg (fun h => he ((empty_iff _ _).2 h))]
  | blockhash =>
    obtain ⟨x0, rest, hst⟩ := stack1 hp
    simp only [exec, hst]
    refine ⟨x0, rest, by rw [← h4, hst], puts_next h1 h2 h3 ?_⟩
    unfold blockHashOp is64
    have hnum := hz.number
    generalize (2 : Nat) ^ 64 = B at *
    by_cases h : x0.toNat < B
    · rw [if_pos (decide_eq_true h)]
      dsimp only
      by_cases hl : x0.toNat < env.number ∧ env.number ≤ x0.toNat + 256
      · rw [if_pos hl, if_pos]
        split <;> omega
      · rw [if_neg hl, if_neg]
        · rfl
        · split <;> omega
    · rw [if_neg (by rw [decide_eq_true_iff]; exact h), if_neg (by omega)]; rfl
  | pop =>
    obtain ⟨x0, rest, hst⟩ := stack1 hp
    simp only [exec, hst]
    exact ⟨x0, rest, by rw [← h4, hst], _, rfl, hgoes _⟩
  | mload =>
    obtain ⟨x0, rest, hst⟩ := stack1 hp
    rw [hst] at hsz
    simp only [exec, hst]
    rw [memGet_piece (by decide) (Option.some.inj hsz) hn hb, h2]
    exact ⟨x0, rest, by rw [← h4, hst], puts_next h1 h2 h3 (ofBytes_wordOf _)⟩
  | mstore =>
    obtain ⟨x0, x1, rest, hst⟩ := stack2 hp
    rw [hst] at hsz
    simp only [exec, hst]
    exact ⟨x0, x1, rest, by rw [← h4, hst], writes_store h1 h2 h3 (by decide) (Option.some.inj hsz) hn (by unfold wordBytes; rw [Bytes.be_length])
      (fun i hi => byteAt_wordBytes _ hi)⟩
  | mstore8 =>
    obtain ⟨x0, x1, rest, hst⟩ := stack2 hp
    rw [hst] at hsz
    simp only [exec, hst]
    refine ⟨x0, x1, rest, by rw [← h4, hst], writes_store h1 h2 h3 (by decide) (Option.some.inj hsz) hn rfl ?_⟩
    intro i hi
    have : i = 0 := by omega
    subst this
    exact UInt8.toNat.inj (by show (UInt8.ofNat _).toNat = _; rw [UInt8.toNat_ofNat', UInt8.toNat_ofNat', Nat.mod_mod_of_dvd _ (Nat.dvd_refl _)])
  | sload =>
    obtain ⟨x0, rest, hst⟩ := stack1 hp
    simp only [exec, hst]
    exact ⟨x0, rest, by rw [← h4, hst], puts_next h1 h2 h3 (hw.state _ _)⟩
  | sstore =>
    obtain ⟨x0, x1, rest, hst⟩ := stack2 hp
    simp only [exec, hst]
    refine ⟨x0, x1, rest, by rw [← h4, hst], ?_⟩
    split
    · rfl
    · exact ⟨_, _, rfl, hgoes _, stored hw hz.absent _ _ _⟩
  | jump =>
    obtain ⟨x0, rest, hst⟩ := stack1 hp
    simp only [exec, hst]
    exact ⟨x0, rest, by rw [← h4, hst], jump_spec hz.code h2 h3⟩
  | jumpi =>
    obtain ⟨x0, x1, rest, hst⟩ := stack2 hp
    simp only [exec, hst]
    refine ⟨x0, x1, rest, by rw [← h4, hst], ?_, ?_⟩
    · intro h
      rw [if_pos ((zero_iff _).2 h)]
      exact ⟨_, rfl, hgoes _⟩
    · intro h
      rw [if_neg (fun e => h ((zero_iff _).1 e))]
      exact jump_spec hz.code h2 h3
  | jumpdest =>
    simp only [exec]
    exact ⟨_, rfl, by rw [← h4]; exact hgoes _⟩
  | push k =>
    simp only [exec]
    refine ⟨_, rfl, by rw [← h1], ?_, fun i => by rw [← h2], h3⟩
    unfold pushData
    rw [h4, ofBytes_wordOf, getData_piece, h1]
  | dup k =>
    have hk : k < m.stack.length := hp
    simp only [exec, List.getElem?_eq_getElem hk]
    refine ⟨m.stack[k], ?_, ?_⟩
    · rw [← h4, List.getElem?_eq_getElem hk]
    · rw [← h4]; exact puts_next h1 h2 h3 rfl
  | swap k =>
    have hk : k + 1 < m.stack.length := hp
    simp only [exec, List.getElem?_eq_getElem hk, List.getElem?_eq_getElem (show 0 < m.stack.length by omega)]
    refine ⟨_, ?_, _, rfl, hgoes _⟩
    intro i
    rw [← h4, List.getElem?_set, List.getElem?_set, List.length_set]
    by_cases hi : i = 0
    · subst hi
      rw [if_neg (by omega), if_pos rfl, if_pos (by omega), if_pos rfl, List.getElem?_eq_getElem hk]
    · rw [if_neg (c := i = 0) hi]
      by_cases hi2 : i = k + 1
      · rw [if_pos hi2.symm, if_pos hk, if_pos hi2, List.getElem?_eq_getElem]
      · rw [if_neg (fun e => hi2 e.symm), if_neg (fun e => hi e.symm), if_neg hi2]
  | log k =>
    obtain ⟨x0, x1, rest, hst⟩ := stack2 (show 2 ≤ m.stack.length by simp only [pops] at hp; omega)
    have hk : k ≤ rest.length := by
      rw [hst] at hp
      simp only [pops, List.length_cons] at hp
      omega
    rw [hst] at hsz
    simp only [exec, logOp, hst]
    refine ⟨x0, x1, rest.take k, rest.drop k, by rw [← h4, hst, List.take_append_drop], by rw [List.length_take]; omega, ?_⟩
    split
    · rfl
    · rw [if_neg (by omega), get_piece (Option.some.inj hsz) hn hb h2]
      exact ⟨_, _, rfl, hgoes _, by show w1.logs ++ _ = _; rw [hw.logs], hw.accts, hw.store⟩
  | create =>
    obtain ⟨x0, x1, x2, rest, hst⟩ := stack3 hp
    rw [hst] at hsz
    simp only [exec, createOp, hst]
    refine ⟨x0, x1, x2, rest, by rw [← h4, hst], ?_⟩
    split
    · rfl
    · rw [get_piece (Option.some.inj hsz) hn hb h2]
      exact ⟨_, _, rfl, rfl, rfl, rfl, hgoes _⟩
  | create2 =>
    obtain ⟨x0, x1, x2, x3, rest, hst⟩ := stack4 hp
    rw [hst] at hsz
    simp only [exec, createOp, hst]
    refine ⟨x0, x1, x2, x3, rest, by rw [← h4, hst], ?_⟩
    split
    · rfl
    · rw [get_piece (Option.some.inj hsz) hn hb h2]
      exact ⟨_, _, rfl, rfl, rfl, rfl, hgoes _⟩
  | call k =>
    have hret : ∀ {ro rs : Word} {x : Nat}, calcMemSize ro rs = some x → low64 rs = rs.toNat ∧ (rs.toNat ≠ 0 → low64 ro = ro.toNat) := by
      intro ro rs x h
      obtain ⟨a, b, c⟩ := size_len h
      refine ⟨b, fun h0 => ?_⟩
      rcases calcLen_cases a c with e | e
      · exact absurd e h0
      · exact e.1
    cases k with
    | call =>
      obtain ⟨x0, x1, x2, x3, x4, x5, x6, rest, hst⟩ := stack7 hp
      rw [hst] at hsz
      obtain ⟨p, q, hp1, hq1, hp2, hq2⟩ := both_len (Option.some.inj hsz)
      simp only [exec, callOp, hst]
      rw [get_piece hq1 (by omega) hb h2]
      refine ⟨x0, x1, x2, x3, x4, x5, x6, rest, by rw [← h4, hst], ?_⟩
      by_cases hro : ctx.readOnly = true ∧ x2.toNat ≠ 0
      · rw [if_pos hro]
        dsimp only
        rw [if_pos ⟨trivial, hro.1, fun e => hro.2 ((zero_iff _).1 e)⟩]
      · rw [if_neg hro]
        dsimp only
        rw [if_neg (fun h => hro ⟨h.2.1, fun e => h.2.2 ((zero_iff _).2 e)⟩)]
        exact ⟨_, _, rfl, rfl, toAddr_addrOf _, rfl, rfl, (hret hp1).1, (hret hp1).2, hgoes _⟩
    | callcode =>
      obtain ⟨x0, x1, x2, x3, x4, x5, x6, rest, hst⟩ := stack7 hp
      rw [hst] at hsz
      obtain ⟨p, q, hp1, hq1, hp2, hq2⟩ := both_len (Option.some.inj hsz)
      simp only [exec, callOp, hst]
      rw [get_piece hq1 (by omega) hb h2]
      refine ⟨x0, x1, x2, x3, x4, x5, x6, rest, by rw [← h4, hst], ?_⟩
      dsimp only
      rw [if_neg (fun h => by cases h.1)]
      exact ⟨_, _, rfl, rfl, toAddr_addrOf _, rfl, rfl, (hret hp1).1, (hret hp1).2, hgoes _⟩
    | delegate =>
      obtain ⟨x0, x1, x2, x3, x4, x5, rest, hst⟩ := stack6 hp
      rw [hst] at hsz
      obtain ⟨p, q, hp1, hq1, hp2, hq2⟩ := both_len (Option.some.inj hsz)
      simp only [exec, callOp, hst]
      rw [get_piece hq1 (by omega) hb h2]
      exact ⟨x0, x1, x2, x3, x4, x5, rest, by rw [← h4, hst], _, _, rfl, rfl, toAddr_addrOf _, rfl, rfl, (hret hp1).1, (hret hp1).2, hgoes _⟩
    | static =>
      obtain ⟨x0, x1, x2, x3, x4, x5, rest, hst⟩ := stack6 hp
      rw [hst] at hsz
      obtain ⟨p, q, hp1, hq1, hp2, hq2⟩ := both_len (Option.some.inj hsz)
      simp only [exec, callOp, hst]
      rw [get_piece hq1 (by omega) hb h2]
      exact ⟨x0, x1, x2, x3, x4, x5, rest, by rw [← h4, hst], _, _, rfl, rfl, toAddr_addrOf _, rfl, rfl, (hret hp1).1, (hret hp1).2, hgoes _⟩
  | ret =>
    obtain ⟨x0, x1, rest, hst⟩ := stack2 hp
    rw [hst] at hsz
    simp only [exec, hst]
    rw [get_piece (Option.some.inj hsz) hn hb h2]
    exact ⟨x0, x1, rest, by rw [← h4, hst], rfl⟩
  | revert =>
    obtain ⟨x0, x1, rest, hst⟩ := stack2 hp
    rw [hst] at hsz
    simp only [exec, hst]
    rw [get_piece (Option.some.inj hsz) hn hb h2]
    exact ⟨x0, x1, rest, by rw [← h4, hst], rfl⟩
  | selfdestruct =>
    obtain ⟨x0, rest, hst⟩ := stack1 hp
    simp only [exec, hst]
    refine ⟨x0, rest, by rw [← h4, hst], ?_⟩
    split
    · rfl
    · exact ⟨_, rfl, by rw [toAddr_addrOf]; exact destroyed hw hz.absent _ _⟩
  | invalid =>
    obtain ⟨b, hb⟩ := hop rfl
    simp only [exec, hb]
    rfl

/-! ### Theorems -/

/-- **Every instruction does what its description says.** A round of the loop either finds that the instruction cannot be charged for (too few words, no room,
not enough gas) and fails, or does exactly what `Post` says of the instruction at the current position. -/
theorem step_correct (env : Env) (ctx : Ctx) (w : World) {gas : Nat} {m : Mach} (hg : gas < 2 ^ 64) (hm : MachOk m) (hz : Sized env ctx w m.retData)
    (hnp : (step env ctx w gas m).exec ≠ .panic) :
    let op := decode env.push0 (byteAt ctx.code m.pc)
    (∀ gas' size, Charged ctx w gas m op gas' size →
      (step env ctx w gas m).gas = gas' ∧ Warms w (step env ctx w gas m).world ∧
      Post env ctx w gas' ⟨m.pc, m.stack, byteAt m.mem, m.mem.length, m.retData⟩ op (step env ctx w gas m).exec) ∧
    ((∀ gas' size, ¬ Charged ctx w gas m op gas' size) → (step env ctx w gas m).exec = .fail) := by
  dsimp only
  have hgo : getOp ctx.code m.pc = byteAt ctx.code m.pc := by
    unfold getOp byteAt
    cases ctx.code[m.pc]? <;> rfl
  have hop : decode env.push0 (byteAt ctx.code m.pc) = .invalid → ∃ b, ctx.code[m.pc]? = some b := by rw [← hgo]; exact invalid_code
  unfold step at hnp ⊢
  rw [hgo] at hnp ⊢
  generalize decode env.push0 (byteAt ctx.code m.pc) = op at *
  dsimp only at hnp ⊢
  constructor
  · rintro gas' size ⟨c1, c2, c3, n, cost, child, last, w1, c4, c5, c6, c7, c8⟩
    have hd := dyn_facts (ctx := ctx) (w := w) (gas := gas - constGas op) (Nat.lt_of_le_of_lt (Nat.sub_le _ _) hg) hm.mem c1 c4 c5
    rw [c6] at hd
    obtain ⟨d1, d2, _⟩ := hd
    have hlen : (resize m.mem size).length = max m.mem.length size := resize_length _ _
    have hle := (size_words c5).2
    rw [if_neg (by omega), if_neg (by omega), c4]
    dsimp only
    rw [c5]
    dsimp only [stepSized]
    rw [c6]
    dsimp only
    rw [if_neg (by omega), ← c8]
    refine ⟨rfl, d2, ?_⟩
    refine exec_correct (n := n) (m := { m with mem := resize m.mem size, last := last }) d2 hz c1 c4 (by show n ≤ (resize m.mem size).length; rw [hlen]; omega)
      (by show (resize m.mem size).length ≤ _; rw [hlen]; exact d1.bound) hop rfl (funext fun i => byteAt_resize _ _ _) rfl rfl ?_
    by_cases hmz : op = .null .msize
    · subst hmz
      left
      cases c4
      rw [size_zero c5]
      show (resize m.mem 0).length = _
      rw [resize_length]
      exact Nat.max_eq_left (Nat.zero_le _)
    · right
      intro o e1 e2
      subst e2
      exact hmz e1
  · intro hno
    split
    · rfl
    · rename_i h1
      rw [if_neg h1] at hnp
      split
      · rfl
      · rename_i h2
        rw [if_neg h2] at hnp
        cases hsz : memSize op m.stack with
        | none => exact absurd hsz (memSize_some (by omega))
        | some o =>
          cases o with
          | none => rfl
          | some n =>
            rw [hsz] at hnp
            dsimp only at hnp ⊢
            cases hs : safeMul (toWordSize n) 32 with
            | none => rfl
            | some size =>
              rw [hs] at hnp
              dsimp only [stepSized] at hnp ⊢
              cases hd : dynGas ctx m w (gas - constGas op) size op with
              | panic => rw [hd] at hnp; exact absurd rfl hnp
              | fail w1 => rfl
              | ok cost child last w1 =>
                dsimp only
                by_cases hc : gas - constGas op < cost
                · rw [if_pos hc]
                · exact absurd ⟨by omega, by omega, by omega, n, cost, child, last, w1, hsz, hs, hd, by omega, rfl⟩ (hno (gas - constGas op - cost) size)

/-! ### Examples -/

/-- `MSTORE` of 7 at 0 with 10 gas in a fresh memory: charged 3 and 3, and 32 bytes of memory. -/
def demoCtx : Ctx := { self := 0xaa#160, caller := 0x11#160, value := 0, input := [1, 2, 3], code := [0x52, 0x5b, 0x60], depth := 1, readOnly := false }
def demoMach : Mach := { Mach.init with stack := [0#256, 7#256] }
example : MachOk demoMach := ⟨⟨by decide, by decide, by decide⟩, by decide⟩
example : Charged demoCtx (demoWorld []) 10 demoMach .mstore 4 32 := ⟨by decide, by decide, by decide, 32, 3, 0, 3, _, rfl, by decide, rfl, by decide, rfl⟩
example : Sized demoEnv demoCtx (demoWorld []) demoMach.retData := by
  refine ⟨by decide, by decide, ?_, by decide, by decide, fun _ _ _ => rfl⟩
  intro a
  unfold World.code World.acct demoWorld
  simp only [List.map_nil, KV.get_cons, KV.get_nil]
  split <;> decide
example : Target demoCtx.code 1 := ⟨rfl, .next .zero (op := 0x52) rfl⟩
example : ¬ Target demoCtx.code 0 := fun h => by cases h.1
example : decode true 0x52 = .mstore ∧ byteOf 7#256 31 = 7 ∧ byteOf 7#256 30 = 0 := by decide +kernel

/-- The numbers of the instructions (yellow paper, appendix H, with EIP-3855). -/
def opcodes : List (Nat × Op) :=
  [(0x00, .stop), (0x01, .bin .add), (0x02, .bin .mul), (0x03, .bin .sub), (0x04, .bin .div), (0x05, .bin .sdiv), (0x06, .bin .mod), (0x07, .bin .smod),
   (0x08, .tern .addmod), (0x09, .tern .mulmod), (0x0a, .exp), (0x0b, .bin .signextend), (0x10, .bin .lt), (0x11, .bin .gt), (0x12, .bin .slt),
   (0x13, .bin .sgt), (0x14, .bin .eq), (0x15, .un .iszero), (0x16, .bin .and), (0x17, .bin .or), (0x18, .bin .xor), (0x19, .un .not), (0x1a, .bin .byte),
   (0x1b, .bin .shl), (0x1c, .bin .shr), (0x1d, .bin .sar), (0x20, .keccak), (0x30, .null .address), (0x31, .balance), (0x32, .null .origin),
   (0x33, .null .caller), (0x34, .null .callvalue), (0x35, .calldataload), (0x36, .null .calldatasize), (0x37, .copy .calldata), (0x38, .null .codesize),
   (0x39, .copy .code), (0x3a, .null .gasprice), (0x3b, .extcodesize), (0x3c, .extcodecopy), (0x3d, .null .returndatasize), (0x3e, .copy .returndata),
   (0x3f, .extcodehash), (0x40, .blockhash), (0x41, .null .coinbase), (0x42, .null .timestamp), (0x43, .null .number), (0x44, .null .difficulty),
   (0x45, .null .gaslimit), (0x46, .null .chainid), (0x47, .null .selfbalance), (0x48, .null .basefee), (0x50, .pop), (0x51, .mload), (0x52, .mstore),
   (0x53, .mstore8), (0x54, .sload), (0x55, .sstore), (0x56, .jump), (0x57, .jumpi), (0x58, .null .pc), (0x59, .null .msize), (0x5a, .null .gas),
   (0x5b, .jumpdest), (0x5f, .null .push0)] ++ (List.range 32).map (fun n => (0x60 + n, .push n)) ++ (List.range 16).map (fun n => (0x80 + n, .dup n)) ++
   (List.range 16).map (fun n => (0x90 + n, .swap n)) ++ (List.range 5).map (fun n => (0xa0 + n, .log n)) ++
  [(0xf0, .create), (0xf1, .call .call), (0xf2, .call .callcode), (0xf3, .ret), (0xf4, .call .delegate), (0xf5, .create2), (0xfa, .call .static),
   (0xfd, .revert), (0xff, .selfdestruct)]

/-- All 256 bytes mean what the table says, and all others are invalid. -/
theorem decode_opcodes : ∀ b : UInt8, decode true b = ((opcodes.find? (fun p => p.1 == b.toNat)).map (·.2)).getD .invalid := by
  have h : ∀ n : Fin 256, decode true (UInt8.ofNat n) = ((opcodes.find? (fun p => p.1 == (UInt8.ofNat n).toNat)).map (·.2)).getD .invalid := by decide +kernel
  intro b
  have := h ⟨b.toNat, b.toNat_lt⟩
  simpa using this

end VM
