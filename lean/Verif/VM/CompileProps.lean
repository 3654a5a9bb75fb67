import Verif.VM.StepProps
/-!
# Compiled expressions (C73)

End to end: the contract obtained by compiling an arithmetic expression over its call data returns, for every expression and every input, the value of the
expression, if and only if enough gas is given.
-/
namespace VM

/-! ### Specification -/

/-- Expressions over the call data. -/
inductive Expr where
  | lit (x : Word)
  | input (off : Expr)
  | un (o : UnOp) (a : Expr)
  | bin (o : BinOp) (a b : Expr)
  | tern (o : TernOp) (a b c : Expr)

/-- Their value, by the definitions on integers. -/
def Expr.eval (input : List UInt8) : Expr → Word
  | .lit x => x
  | .input a => wordOf (piece (byteAt input) (a.eval input).toNat 32)
  | .un o a => specUn o (a.eval input)
  | .bin o a b => specBin o (a.eval input) (b.eval input)
  | .tern o a b c => specTern o (a.eval input) (b.eval input) (c.eval input)

/-- Opcodes. -/
def unCode : UnOp → UInt8 | .iszero => 0x15 | .not => 0x19
def binCode : BinOp → UInt8
  | .add => 0x01 | .mul => 0x02 | .sub => 0x03 | .div => 0x04 | .sdiv => 0x05 | .mod => 0x06 | .smod => 0x07 | .signextend => 0x0b
  | .lt => 0x10 | .gt => 0x11 | .slt => 0x12 | .sgt => 0x13 | .eq => 0x14 | .and => 0x16 | .or => 0x17 | .xor => 0x18 | .byte => 0x1a | .shl => 0x1b
  | .shr => 0x1c | .sar => 0x1d
def ternCode : TernOp → UInt8 | .addmod => 0x08 | .mulmod => 0x09

/-- Gas by the table of the yellow paper: 3 for the very low, 5 for the low, 8 for the middle tier. -/
def binCost : BinOp → Nat
  | .mul => 5 | .div => 5 | .sdiv => 5 | .mod => 5 | .smod => 5 | .signextend => 5 | _ => 3

/-- Code for an expression: `PUSH32` for literals, operands last to first. -/
def Expr.code : Expr → List UInt8
  | .lit x => 0x7f :: (List.range 32).map (byteOf x)
  | .input a => a.code ++ [0x35]
  | .un o a => a.code ++ [unCode o]
  | .bin o a b => b.code ++ (a.code ++ [binCode o])
  | .tern o a b c => c.code ++ (b.code ++ (a.code ++ [ternCode o]))

def Expr.cost : Expr → Nat
  | .lit _ => 3
  | .input a => a.cost + 3
  | .un _ a => a.cost + 3
  | .bin o a b => b.cost + (a.cost + binCost o)
  | .tern _ a b c => c.cost + (b.cost + (a.cost + 8))

/-- Words of stack needed. -/
def Expr.need : Expr → Nat
  | .lit _ => 1
  | .input a => a.need
  | .un _ a => a.need
  | .bin _ a b => max b.need (a.need + 1)
  | .tern _ a b c => max c.need (max (b.need + 1) (a.need + 2))

/-- Number of instructions. -/
def Expr.steps : Expr → Nat
  | .lit _ => 1
  | .input a => a.steps + 1
  | .un _ a => a.steps + 1
  | .bin _ a b => b.steps + (a.steps + 1)
  | .tern _ a b c => c.steps + (b.steps + (a.steps + 1))

/-- The contract: the value to memory, then return it (`PUSH1 0 MSTORE PUSH1 32 PUSH1 0 RETURN`). -/
def epilogue : List UInt8 := [0x60, 0, 0x52, 0x60, 32, 0x60, 0, 0xf3]
def Expr.contract (e : Expr) : List UInt8 := e.code ++ epilogue

/-! ### Proof -/

theorem resize_zero (s : List UInt8) : resize s 0 = s := by
  unfold resize
  rw [Nat.zero_sub, List.replicate_zero, List.append_nil]

/-- A round of an instruction without memory and dynamic gas. -/
theorem run_simple {env : Env} {fuel : Nat} {ctx : Ctx} {w : World} {gas : Nat} {m m' : Mach} {op : Op} (hop : decode env.push0 (getOp ctx.code m.pc) = op)
    (h1 : pops op ≤ m.stack.length) (h2 : m.stack.length ≤ maxStack op) (h3 : memSize op m.stack = some (some 0))
    (h4 : ∀ g, dynGas ctx m w g 0 op = .ok 0 0 m.last w) (hx : ∀ g, exec env ctx w g m op = .cont m') :
    run env (fuel + 1) ctx w gas m = if gas < constGas op then ⟨.fail, w, gas, []⟩ else run env fuel ctx w (gas - constGas op) m' := by
  have hs : step env ctx w gas m = if gas < constGas op then ⟨.fail, gas, 0, w⟩ else ⟨.cont m', gas - constGas op, 0, w⟩ := by
    unfold step
    rw [hop]
    dsimp only
    rw [if_neg (by omega)]
    by_cases hg : gas < constGas op
    · rw [if_pos hg, if_pos hg]
    · rw [if_neg hg, if_neg hg, h3]
      dsimp only
      rw [show safeMul (toWordSize 0) 32 = some 0 by decide]
      dsimp only [stepSized]
      rw [h4]
      dsimp only
      rw [if_neg (Nat.not_lt_zero _), Nat.sub_zero, resize_zero]
      have : ({ m with mem := m.mem, last := m.last } : Mach) = m := rfl
      rw [this, hx]
  by_cases hg : gas < constGas op
  · rw [if_pos hg] at hs ⊢
    simp only [run, hs]
  · rw [if_neg hg] at hs ⊢
    simp only [run, hs]

/-- From one machine state to another in a number of rounds and for a price, or to the end. -/
def Runs (env : Env) (ctx : Ctx) (w : World) (m m' : Mach) (steps cost : Nat) : Prop :=
  ∀ fuel gas, (cost ≤ gas → run env (steps + fuel) ctx w gas m = run env fuel ctx w (gas - cost) m') ∧
    (gas < cost → (run env (steps + fuel) ctx w gas m).status = .fail)

theorem Runs.comp {env : Env} {ctx : Ctx} {w : World} {m m1 m2 : Mach} {s1 s2 c1 c2 : Nat} (h1 : Runs env ctx w m m1 s1 c1) (h2 : Runs env ctx w m1 m2 s2 c2) :
    Runs env ctx w m m2 (s1 + s2) (c1 + c2) := by
  intro fuel gas
  obtain ⟨a1, a2⟩ := h1 (s2 + fuel) gas
  rw [Nat.add_assoc]
  constructor
  · intro h
    rw [a1 (by omega), (h2 fuel (gas - c1)).1 (by omega), Nat.sub_sub]
  · intro h
    by_cases hc : gas < c1
    · exact a2 hc
    · rw [a1 (by omega)]
      exact (h2 fuel (gas - c1)).2 (by omega)

theorem Runs.one {env : Env} {ctx : Ctx} {w : World} {m m' : Mach} {op : Op} (hop : decode env.push0 (getOp ctx.code m.pc) = op)
    (h1 : pops op ≤ m.stack.length) (h2 : m.stack.length ≤ maxStack op) (h3 : memSize op m.stack = some (some 0))
    (h4 : ∀ g, dynGas ctx m w g 0 op = .ok 0 0 m.last w) (hx : ∀ g, exec env ctx w g m op = .cont m') : Runs env ctx w m m' 1 (constGas op) := by
  intro fuel gas
  rw [Nat.add_comm, run_simple hop h1 h2 h3 h4 hx]
  constructor
  · intro h; rw [if_neg (by omega)]
  · intro h; rw [if_pos h]

theorem getOp_at {pre rest : List UInt8} {b : UInt8} : getOp (pre ++ b :: rest) pre.length = b := by
  unfold getOp
  rw [List.getElem?_append_right (Nat.le_refl _), Nat.sub_self]
  rfl

theorem wordBytes_eq (x : Word) : (List.range 32).map (byteOf x) = wordBytes x := by
  have h : wordBytes x = piece (byteAt (wordBytes x)) 0 32 := by
    have := take_drop_piece (d := wordBytes x) (off := 0) (len := 32) (by unfold wordBytes; rw [Bytes.be_length]; decide)
    rw [← this, List.drop_zero, List.take_of_length_le (by unfold wordBytes; rw [Bytes.be_length]; decide)]
  rw [h]
  unfold piece
  apply List.map_congr_left
  intro j hj
  rw [Nat.zero_add, byteAt_wordBytes _ (List.mem_range.1 hj)]

theorem push_literal {pre rest : List UInt8} (x : Word) : pushData (pre ++ 0x7f :: (wordBytes x ++ rest)) pre.length 32 = x := by
  unfold pushData getData
  have hl : (wordBytes x).length = 32 := by unfold wordBytes; rw [Bytes.be_length]
  have e : (pre ++ 0x7f :: (wordBytes x ++ rest)).drop (pre.length + 1) = wordBytes x ++ rest := by
    rw [← List.drop_drop, List.drop_left]
    rfl
  dsimp only
  rw [e, List.take_append_of_le_length (by omega), List.take_of_length_le (by omega), hl]
  show ofBytes (wordBytes x ++ []) = x
  rw [List.append_nil]
  unfold ofBytes wordBytes
  rw [Bytes.unbe_be]
  · exact wordN_toNat x
  · have := x.isLt
    rw [show (256 : Nat) ^ 32 = 2 ^ 256 by decide]
    exact this

theorem decode_un (p : Bool) (o : UnOp) : decode p (unCode o) = .un o := by cases o <;> rfl
theorem decode_bin (p : Bool) (o : BinOp) : decode p (binCode o) = .bin o := by cases o <;> rfl
theorem decode_tern (p : Bool) (o : TernOp) : decode p (ternCode o) = .tern o := by cases o <;> rfl
theorem cost_bin (o : BinOp) : constGas (.bin o) = binCost o := by cases o <;> rfl

theorem Expr.need_pos (e : Expr) : 1 ≤ e.need := by
  induction e with
  | lit x => exact Nat.le_refl _
  | input a ih => exact ih
  | un o a ih => exact ih
  | bin o a b iha ihb => rw [Expr.need]; omega
  | tern o a b c iha ihb ihc => rw [Expr.need]; omega

/-- Running the code of an expression, wherever it stands: its value on top of the stack and its cost off the gas, or the end. -/
theorem expr_runs {env : Env} {w : World} {ctx : Ctx} (hin : ctx.input.length < 2 ^ 64) (e : Expr) : ∀ {m : Mach} {pre rest : List UInt8},
    ctx.code = pre ++ (e.code ++ rest) → m.pc = pre.length → m.stack.length + e.need ≤ 1024 →
    Runs env ctx w m { m with pc := pre.length + e.code.length, stack := e.eval ctx.input :: m.stack } e.steps e.cost := by
  induction e with
  | lit x =>
    intro m pre rest hc hpc hn
    rw [Expr.code, wordBytes_eq] at hc ⊢
    rw [Expr.need] at hn
    refine Runs.one (op := .push 31) ?_ (Nat.zero_le _) ?_ rfl (fun _ => rfl) ?_
    · rw [hc, hpc, List.cons_append, getOp_at]; rfl
    · show m.stack.length ≤ 1023; omega
    · intro g
      have hl : (wordBytes x).length = 32 := by unfold wordBytes; rw [Bytes.be_length]
      have hp := push_literal (pre := pre) (rest := rest) x
      simp only [exec, Expr.eval]
      rw [hc, hpc, List.cons_append, hp, List.length_cons, hl]
  | input a ih =>
    intro m pre rest hc hpc hn
    have hpos := a.need_pos
    rw [Expr.code, List.append_assoc] at hc
    refine (ih hc hpc hn).comp (Runs.one (op := .calldataload) ?_ ?_ ?_ rfl (fun _ => rfl) ?_)
    · dsimp only
      rw [hc, ← List.append_assoc, ← List.length_append, List.singleton_append, getOp_at]; rfl
    · exact Nat.succ_le_succ (Nat.zero_le _)
    · rw [Expr.need] at hn
      show m.stack.length + 1 ≤ 1024; omega
    · intro g
      simp only [exec, Expr.eval, Mach.next, load_word hin]
      simp only [Expr.code, List.length_append, List.length_singleton, Nat.add_assoc]
  | un o a ih =>
    intro m pre rest hc hpc hn
    have hpos := a.need_pos
    rw [Expr.code, List.append_assoc] at hc
    refine (ih hc hpc hn).comp (Runs.one (op := .un o) ?_ ?_ ?_ rfl (fun _ => rfl) ?_)
    · dsimp only
      rw [hc, ← List.append_assoc, ← List.length_append, List.singleton_append, getOp_at, decode_un]
    · exact Nat.succ_le_succ (Nat.zero_le _)
    · rw [Expr.need] at hn
      show m.stack.length + 1 ≤ 1024; omega
    · intro g
      simp only [exec, Expr.eval, Mach.next, unOp_correct]
      simp only [Expr.code, List.length_append, List.length_singleton, Nat.add_assoc]
  | bin o a b iha ihb =>
    intro m pre rest hc hpc hn
    have hpos := a.need_pos
    rw [Expr.need] at hn
    rw [Expr.code, List.append_assoc] at hc
    have h1 := ihb hc hpc (by omega)
    have hc2 : ctx.code = (pre ++ b.code) ++ (a.code ++ ([binCode o] ++ rest)) := by rw [hc]; simp only [List.append_assoc]
    have h2 := iha (m := { m with pc := pre.length + b.code.length, stack := b.eval ctx.input :: m.stack }) hc2 (by rw [List.length_append])
      (by show m.stack.length + 1 + _ ≤ _; omega)
    rw [Expr.steps, Expr.cost, ← cost_bin]
    refine h1.comp (h2.comp (Runs.one (op := .bin o) ?_ ?_ ?_ rfl (fun _ => rfl) ?_))
    · dsimp only
      rw [hc2, ← List.append_assoc, ← List.length_append, List.singleton_append, getOp_at, decode_bin]
    · show 2 ≤ m.stack.length + 1 + 1; omega
    · show m.stack.length + 1 + 1 ≤ 1025; omega
    · intro g
      simp only [exec, Expr.eval, Mach.next, binOp_correct]
      simp only [Expr.code, List.length_append, List.length_singleton, Nat.add_assoc]
  | tern o a b c iha ihb ihc =>
    intro m pre rest hc hpc hn
    have hpos := a.need_pos
    rw [Expr.need] at hn
    rw [Expr.code, List.append_assoc] at hc
    have h1 := ihc hc hpc (by omega)
    have hc2 : ctx.code = (pre ++ c.code) ++ (b.code ++ (a.code ++ ([ternCode o] ++ rest))) := by rw [hc]; simp only [List.append_assoc]
    have h2 := ihb (m := { m with pc := pre.length + c.code.length, stack := c.eval ctx.input :: m.stack }) hc2 (by rw [List.length_append])
      (by show m.stack.length + 1 + _ ≤ _; omega)
    have hc3 : ctx.code = (pre ++ c.code ++ b.code) ++ (a.code ++ ([ternCode o] ++ rest)) := by rw [hc]; simp only [List.append_assoc]
    have h3 := iha (m := { m with pc := (pre ++ c.code).length + b.code.length, stack := b.eval ctx.input :: c.eval ctx.input :: m.stack }) hc3 (by simp only [List.length_append])
      (by show m.stack.length + 1 + 1 + _ ≤ _; omega)
    rw [Expr.steps, Expr.cost]
    refine h1.comp (h2.comp (h3.comp (Runs.one (op := .tern o) ?_ ?_ ?_ rfl (fun _ => rfl) ?_)))
    · dsimp only
      rw [hc3, ← List.append_assoc, ← List.length_append, List.singleton_append, getOp_at, decode_tern]
    · show 3 ≤ m.stack.length + 1 + 1 + 1; omega
    · show m.stack.length + 1 + 1 + 1 ≤ 1026; omega
    · intro g
      simp only [exec, Expr.eval, Mach.next, ternOp_correct]
      simp only [Expr.code, List.length_append, List.length_singleton, Nat.add_assoc]

theorem code_transfer (w : World) (a b c : Addr) (v : Int) : (w.transfer a b v).code c = w.code c := by
  have h : ∀ (u : World) (x : Addr) (f : Acct → Acct), (∀ d, (f d).code = d.code) → (u.modify x f).code c = u.code c := by
    intro u x f hf
    unfold World.code
    rw [acct_modify]
    by_cases e : c = x
    · rw [if_pos e, e]
      cases u.acct x with
      | none => exact hf _
      | some d => exact hf d
    · rw [if_neg e]
  unfold World.transfer World.addBalance World.subBalance
  rw [h _ b (fun c => { c with balance := c.balance + v }) (fun _ => rfl), h _ a (fun c => { c with balance := c.balance - v }) (fun _ => rfl)]

theorem Runs.step {env : Env} {ctx : Ctx} {w : World} {m m' : Mach} {c : Nat}
    (h : ∀ gas, (c ≤ gas → VM.step env ctx w gas m = ⟨.cont m', gas - c, 0, w⟩) ∧ (gas < c → (VM.step env ctx w gas m).exec = .fail)) : Runs env ctx w m m' 1 c := by
  intro fuel gas
  rw [Nat.add_comm 1]
  constructor
  · intro hc
    simp only [run, (h gas).1 hc]
  · intro hc
    simp only [run, (h gas).2 hc]

/-- The end of the contract with a fresh memory. -/
theorem return_runs {env : Env} {ctx : Ctx} {w : World} {fuel : Nat} {pre : List UInt8} {x : Word} {m : Mach} (gas : Nat) (hc : ctx.code = pre ++ epilogue)
    (hpc : m.pc = pre.length) (hst : m.stack = [x]) (hmem : m.mem = []) (hl : m.last = 0) :
    (15 ≤ gas → run env (5 + fuel) ctx w gas m = ⟨.ok, w, gas - 15, wordBytes x⟩) ∧ (gas < 15 → (run env (5 + fuel) ctx w gas m).status = .fail) := by
  have hcode : ∀ i, ctx.code[pre.length + i]? = epilogue[i]? := by
    intro i
    rw [hc, List.getElem?_append_right (Nat.le_add_right _ _), Nat.add_sub_cancel_left]
  have hop : ∀ i, getOp ctx.code (pre.length + i) = (epilogue[i]?).getD 0 := by
    intro i
    unfold getOp
    rw [hcode i]
  have hdata : ∀ i, pushData ctx.code (pre.length + i) 1 = wordN ((epilogue[i + 1]?).getD 0).toNat := by
    intro i
    unfold pushData
    rw [ofBytes_wordOf, getData_piece]
    unfold piece byteAt wordOf
    show wordN _ = _
    simp only [List.range_succ, List.range_zero, List.nil_append, List.map_cons, List.map_nil, List.foldl_cons, List.foldl_nil, Nat.add_zero, Nat.zero_mul, Nat.zero_add]
    rw [Nat.add_assoc, hcode (i + 1)]
  have hwl : (wordBytes x).length = 32 := by unfold wordBytes; rw [Bytes.be_length]
  have push : ∀ (i : Nat) (m1 : Mach), m1.pc = pre.length + i → (epilogue[i]?).getD 0 = 0x60 → m1.stack.length ≤ 5 →
      Runs env ctx w m1 { m1 with pc := pre.length + (i + 2), stack := wordN ((epilogue[i + 1]?).getD 0).toNat :: m1.stack } 1 3 := by
    intro i m1 h1 h2 h3
    refine Runs.one (op := .push 0) ?_ (Nat.zero_le _) ?_ rfl (fun _ => rfl) ?_
    · rw [h1, hop, h2]; rfl
    · show m1.stack.length ≤ 1023; omega
    · intro g
      simp only [exec]
      rw [h1, hdata, Nat.add_assoc, Nat.add_assoc]
  have s1 := push 0 m hpc rfl (by rw [hst]; exact (by decide : 1 ≤ 5))
  rw [hst] at s1
  have s2 : Runs env ctx w { m with pc := pre.length + (0 + 2), stack := [wordN 0, x] }
      { m with pc := pre.length + 3, stack := [], mem := wordBytes x, last := 3 } 1 6 := by
    refine Runs.step ?_
    intro g
    have hd : decode env.push0 (getOp ctx.code (pre.length + (0 + 2))) = .mstore := by rw [hop]; rfl
    have hg : ∀ g, dynGas ctx { m with pc := pre.length + (0 + 2), stack := [wordN 0, x] } w g 32 .mstore = .ok 3 0 3 w := by
      intro g
      show memGas _ w 32 some = _
      unfold memGas
      rw [hmem, hl]
      rfl
    have he : ∀ g, exec env ctx w g { m with pc := pre.length + (0 + 2), stack := [wordN 0, x], mem := resize m.mem 32, last := 3 } .mstore =
        .cont { m with pc := pre.length + 3, stack := [], mem := wordBytes x, last := 3 } := by
      intro g
      have : memSet (resize m.mem 32) (low64 (wordN 0)) 32 (wordBytes x) = some (wordBytes x) := by
        rw [hmem]
        unfold memSet
        rw [if_neg (by decide), if_neg (by decide), List.take_of_length_le (Nat.le_of_eq hwl)]
        show some (_ ++ _ ++ _) = _
        rw [hwl]
        show some ([] ++ _ ++ []) = _
        rw [List.nil_append, List.append_nil]
      simp only [exec, this, Mach.store]
    unfold step
    dsimp only
    rw [hd, if_neg (by exact (by decide : ¬ (2 < 2 ∨ 1026 < 2)))]
    have hms : memSize .mstore [wordN 0, x] = some (some 32) := rfl
    have hsm : safeMul (toWordSize 32) 32 = some 32 := by decide
    constructor
    · intro h6
      rw [if_neg (by show ¬ g < 3; omega), hms]
      dsimp only
      rw [hsm]
      dsimp only [stepSized]
      rw [hg]
      dsimp only
      rw [if_neg (by show ¬ g - 3 < 3; omega), he, show constGas .mstore = 3 from rfl, Nat.sub_sub]
    · intro h6
      by_cases h3 : g < constGas .mstore
      · rw [if_pos h3]
      · rw [if_neg h3, hms]
        dsimp only
        rw [hsm]
        dsimp only [stepSized]
        rw [hg]
        dsimp only
        rw [if_pos (by show g - 3 < 3; omega)]
  have s3 := push 3 { m with pc := pre.length + 3, stack := [], mem := wordBytes x, last := 3 } rfl rfl (Nat.zero_le _)
  have s4 := push 5 { m with pc := pre.length + 5, stack := [wordN 32], mem := wordBytes x, last := 3 } rfl rfl (by exact (by decide : 1 ≤ 5))
  have hall := (s1.comp (s2.comp (s3.comp s4)))
  have hend : ∀ g fuel, run env (1 + fuel) ctx w g { m with pc := pre.length + 7, stack := [wordN 0, wordN 32], mem := wordBytes x, last := 3 } = ⟨.ok, w, g, wordBytes x⟩ := by
    intro g fuel
    have hd : decode env.push0 (getOp ctx.code (pre.length + 7)) = .ret := by rw [hop]; rfl
    have hg : dynGas ctx { m with pc := pre.length + 7, stack := [wordN 0, wordN 32], mem := wordBytes x, last := 3 } w g 32 .ret = .ok 0 0 3 w := by
      simp only [dynGas, memGas]
      rw [hwl]
      rfl
    have hr : resize (wordBytes x) 32 = wordBytes x := by
      unfold resize
      rw [hwl]
      exact List.append_nil _
    have hs : step env ctx w g { m with pc := pre.length + 7, stack := [wordN 0, wordN 32], mem := wordBytes x, last := 3 } = ⟨.stop (wordBytes x), g, 0, w⟩ := by
      unfold step
      dsimp only
      rw [hd, if_neg (by decide), if_neg (by exact Nat.not_lt_zero _), show memSize .ret [wordN 0, wordN 32] = some (some 32) from rfl]
      dsimp only
      rw [show safeMul (toWordSize 32) 32 = some 32 by decide]
      dsimp only [stepSized]
      rw [show constGas .ret = 0 from rfl, Nat.sub_zero, hg]
      dsimp only
      rw [if_neg (Nat.not_lt_zero _), Nat.sub_zero, hr]
      have : memGet (wordBytes x) (low64 (wordN 0)) (low64 (wordN 32)) = some (wordBytes x) := by
        unfold memGet
        rw [if_neg (by decide), if_neg (by decide), hwl, if_pos (by decide), if_pos (by decide)]
        show some ((wordBytes x).take 32) = _
        rw [List.take_of_length_le (Nat.le_of_eq hwl)]
      simp only [exec, this]
    rw [Nat.add_comm 1]
    simp only [run, hs]
  obtain ⟨r1, r2⟩ := hall (1 + fuel) gas
  rw [show 5 + fuel = 1 + (1 + (1 + 1)) + (1 + fuel) by omega]
  constructor
  · intro h
    rw [r1 (by omega)]
    exact hend _ _
  · intro h
    exact r2 (by omega)

/-! ### Theorems -/

/-- **A compiled expression computes its value.** A call of the contract of an expression, whatever the expression (of bounded stack need), the call data, the
state and the caller: with at least the cost of the expression and 15 gas it succeeds, returns the 32 bytes of the value, uses exactly that gas and changes
nothing but the transfer of value. With less it fails, uses all gas and changes nothing. -/
theorem contract_returns {env : Env} (e : Expr) {fuel depth gas : Nat} {caller addr : Addr} {input : List UInt8} {value : Int} {w : World} (ro : Bool)
    (hcode : w.code addr = e.contract) (hneed : e.need ≤ 1024) (hin : input.length < 2 ^ 64) (hhook : env.callHook caller addr = true) (hdepth : depth ≤ 1024)
    (hval : value = 0 ∨ value ≤ w.balance caller) (hpre : env.precompile addr = none) (hfuel : e.steps + 5 ≤ fuel) :
    let r := evmCall env (run env fuel) depth ro caller addr input gas value w
    (e.cost + 15 ≤ gas → r.status = .ok ∧ r.ret = (List.range 32).map (byteOf (e.eval input)) ∧ r.gas = gas - (e.cost + 15) ∧ r.world = w.transfer caller addr value) ∧
    (gas < e.cost + 15 → r.status = .fail ∧ r.gas = 0 ∧ r.world = w) := by
  have hex : w.exist addr = true := by
    unfold World.exist
    unfold World.code at hcode
    cases h : w.acct addr with
    | some c => rfl
    | none =>
      rw [h] at hcode
      exfalso
      have : ([] : List UInt8).length = e.contract.length := congrArg List.length hcode
      unfold Expr.contract epilogue at this
      rw [List.length_append] at this
      simp at this
  have hne : e.contract ≠ [] := by
    intro h
    have : e.contract.length = 0 := by rw [h]; rfl
    unfold Expr.contract epilogue at this
    rw [List.length_append] at this
    simp at this
  dsimp only
  unfold evmCall
  rw [if_neg (by rw [hhook]; decide), if_neg (by omega), if_neg (by omega), if_neg (by rw [hex]; simp)]
  dsimp only
  rw [if_pos hex, hpre, code_transfer, hcode]
  dsimp only
  unfold runCode
  dsimp only
  rw [if_neg hne]
  have h1 := expr_runs (env := env) (w := w.transfer caller addr value)
    (ctx := { self := addr, caller := caller, value := value, input := input, code := e.contract, depth := depth + 1, readOnly := ro }) hin e
    (m := Mach.init) (pre := []) (rest := epilogue) rfl rfl (by show 0 + _ ≤ _; omega) (5 + (fuel - (e.steps + 5))) gas
  rw [show e.steps + (5 + (fuel - (e.steps + 5))) = fuel by omega] at h1
  have h2 := return_runs (env := env) (w := w.transfer caller addr value)
    (ctx := { self := addr, caller := caller, value := value, input := input, code := e.contract, depth := depth + 1, readOnly := ro })
    (fuel := fuel - (e.steps + 5)) (pre := e.code) (x := e.eval input)
    (m := { Mach.init with pc := ([] : List UInt8).length + e.code.length, stack := [e.eval input] }) (gas - e.cost) rfl (by simp) rfl rfl rfl
  constructor
  · intro hg
    rw [h1.1 (by omega)]
    have h3 := h2.1 (by omega)
    simp only [Mach.init] at h3 ⊢
    rw [h3]
    exact ⟨rfl, (wordBytes_eq _).symm, by show gas - e.cost - 15 = _; omega, rfl⟩
  · intro hg
    have hf : (run env fuel { self := addr, caller := caller, value := value, input := input, code := e.contract, depth := depth + 1, readOnly := ro } (w.transfer caller addr value) gas Mach.init).status = .fail := by
      by_cases hc : gas < e.cost
      · exact h1.2 hc
      · rw [h1.1 (by omega)]
        exact h2.2 (by omega)
    unfold finish
    split <;> rename_i h
    all_goals rw [hf] at h
    all_goals first | cases h | skip
    exact ⟨hf, rfl, rfl⟩

/-! ### Examples -/

/-- `(calldata[0] * calldata[32]) mod 1000 < ~5`. -/
def demoExpr : Expr := .bin .lt (.tern .mulmod (.input (.lit 0#256)) (.input (.lit 32#256)) (.lit 1000#256)) (.un .not (.lit 5#256))
example : demoExpr.need = 4 ∧ demoExpr.cost = 32 ∧ demoExpr.contract.length = 145 := by decide +kernel
example : let r := evmCall demoEnv (run demoEnv 100) 0 false 0x11#160 0xaa#160 [1, 2, 3] 47 5 (demoWorld [(0xaa#160, demoExpr.contract)])
    r.status = .ok ∧ r.ret = List.replicate 31 0 ++ [1] ∧ r.gas = 0 ∧ r.world.balance 0xaa#160 = 15 := by decide +kernel
example : (evmCall demoEnv (run demoEnv 100) 0 false 0x11#160 0xaa#160 [1, 2, 3] 46 5 (demoWorld [(0xaa#160, demoExpr.contract)])).status = .fail := by decide +kernel
example : (Expr.bin .sub (.lit 3#256) (.lit 5#256)).eval [] = -2#256 := by decide +kernel

end VM
