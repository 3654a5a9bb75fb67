import Verif.VM.StepLemmas
/-!
# Every execution ends and never leaves more gas than it was given (C66)

The interpreter's loop has no bound of its own: it ends because instructions cost gas. The model runs it with fuel; the theorems say that fuel above the gas
never runs out, and that the result does not depend on the fuel.
-/
namespace VM

/-! ### Specification -/

/-- Precompiled contracts return at most the gas they were given (contracts.go 261-295: they can only use gas up). -/
def PrecompilesPay (env : Env) : Prop := ∀ a p, env.precompile a = some p → ∀ c v i g ro w, (p c v i g ro w).gas ≤ g

/-! ### Proof -/

/-- What a runner with this fuel does. -/
def RunnerPays (fuel : Nat) (R : Runner) : Prop :=
  ∀ ctx w gas m, gas < 2 ^ 64 → MachOk m → (R ctx w gas m).gas ≤ gas ∧ (gas < fuel → (R ctx w gas m).status ≠ .outOfFuel)

/-- What a call does. -/
def Pays (fuel gas : Nat) (r : Res) : Prop := r.gas ≤ gas ∧ (gas < fuel → r.status ≠ .outOfFuel)

theorem machOk_init : MachOk Mach.init := ⟨⟨rfl, by decide, rfl⟩, by decide⟩

theorem finish_pays {fuel gas : Nat} {w : World} {r : Res} (h : Pays fuel gas r) : Pays fuel gas (finish w r) := by
  obtain ⟨h1, h2⟩ := h
  unfold finish
  cases hs : r.status with
  | ok => exact ⟨h1, h2⟩
  | reverted => exact ⟨h1, fun _ => by simp⟩
  | fail => exact ⟨Nat.zero_le _, fun _ => by simp⟩
  | panic => exact ⟨h1, h2⟩
  | outOfFuel => exact ⟨h1, h2⟩

theorem ofPRes_status (p : PRes) : (ofPRes p).status ≠ .outOfFuel ∧ (ofPRes p).status ≠ .panic := by
  unfold ofPRes
  dsimp only
  split
  · exact ⟨by simp, by simp⟩
  · split <;> exact ⟨by simp, by simp⟩

theorem runCode_pays {fuel gas : Nat} {R : Runner} (hR : RunnerPays fuel R) (hg : gas < 2 ^ 64) (ctx : Ctx) (w : World) : Pays fuel gas (runCode R ctx w gas) := by
  unfold runCode
  split
  · exact ⟨Nat.le_refl _, fun _ => by simp⟩
  · exact hR ctx w gas Mach.init hg machOk_init

theorem refused_pays {fuel gas g : Nat} (w : World) (h : g ≤ gas) : Pays fuel gas (refused w g) := ⟨h, fun _ => by simp [refused]⟩

theorem pre_pays {fuel gas : Nat} {env : Env} (hP : PrecompilesPay env) {a : Addr} {p} (hp : env.precompile a = some p) {c v i ro w} :
    Pays fuel gas (ofPRes (p c v i gas ro w)) := ⟨hP a p hp _ _ _ _ _ _, fun _ => (ofPRes_status _).1⟩

theorem evmCall_pays {env : Env} (hP : PrecompilesPay env) {fuel gas : Nat} {R : Runner} (hR : RunnerPays fuel R) (hg : gas < 2 ^ 64) {depth ro caller addr input value w} :
    Pays fuel gas (evmCall env R depth ro caller addr input gas value w) := by
  unfold evmCall
  repeat' split
  all_goals first
    | exact refused_pays _ (Nat.le_refl _)
    | exact ⟨Nat.le_refl _, fun _ => by simp⟩
    | skip
  all_goals
    refine finish_pays ?_
    first
    | (rename_i p hp; exact pre_pays hP hp)
    | exact runCode_pays hR hg _ _

theorem evmCallCode_pays {env : Env} (hP : PrecompilesPay env) {fuel gas : Nat} {R : Runner} (hR : RunnerPays fuel R) (hg : gas < 2 ^ 64) {depth ro caller addr input value w} :
    Pays fuel gas (evmCallCode env R depth ro caller addr input gas value w) := by
  unfold evmCallCode
  repeat' split
  all_goals first
    | exact refused_pays _ (Nat.le_refl _)
    | skip
  all_goals
    refine finish_pays ?_
    first
    | (rename_i p hp; exact pre_pays hP hp)
    | exact runCode_pays hR hg _ _

theorem evmDelegate_pays {env : Env} (hP : PrecompilesPay env) {fuel gas : Nat} {R : Runner} (hR : RunnerPays fuel R) (hg : gas < 2 ^ 64) {ctx addr input w} :
    Pays fuel gas (evmDelegate env R ctx addr input gas w) := by
  unfold evmDelegate
  repeat' split
  all_goals first
    | exact refused_pays _ (Nat.le_refl _)
    | skip
  all_goals
    refine finish_pays ?_
    first
    | (rename_i p hp; exact pre_pays hP hp)
    | exact runCode_pays hR hg _ _

theorem evmStatic_pays {env : Env} (hP : PrecompilesPay env) {fuel gas : Nat} {R : Runner} (hR : RunnerPays fuel R) (hg : gas < 2 ^ 64) {depth caller addr input w} :
    Pays fuel gas (evmStatic env R depth caller addr input gas w) := by
  unfold evmStatic
  repeat' split
  all_goals first
    | exact refused_pays _ (Nat.le_refl _)
    | skip
  all_goals
    refine finish_pays ?_
    first
    | (rename_i p hp; exact pre_pays hP hp)
    | exact runCode_pays hR hg _ _

theorem deposit_pays {fuel gas : Nat} {a : Addr} {r : Res} (h : Pays fuel gas r) : Pays fuel gas (deposit a r) := by
  obtain ⟨h1, h2⟩ := h
  unfold deposit
  cases hs : r.status with
  | ok =>
    dsimp only
    split
    · exact ⟨h1, fun _ => by simp⟩
    · split
      · exact ⟨h1, fun _ => by simp⟩
      · split
        · exact ⟨h1, fun _ => by simp⟩
        · exact ⟨Nat.le_trans (Nat.sub_le _ _) h1, fun _ => by simp⟩
  | reverted => exact ⟨h1, h2⟩
  | fail => exact ⟨h1, h2⟩
  | panic => exact ⟨h1, h2⟩
  | outOfFuel => exact ⟨h1, h2⟩

theorem evmCreate_pays {env : Env} {fuel gas : Nat} {R : Runner} (hR : RunnerPays fuel R) (hg : gas < 2 ^ 64) {depth ro caller addr code value w} :
    Pays fuel gas (evmCreate env R depth ro caller addr code gas value w) := by
  unfold evmCreate
  repeat' split
  all_goals first
    | exact refused_pays _ (Nat.le_refl _)
    | skip
  dsimp only
  split
  · exact refused_pays _ (Nat.zero_le _)
  · exact finish_pays (deposit_pays (runCode_pays hR hg _ _))

theorem afterCall_ok {m m' : Mach} {r : CallReq} {res : Res} (h : afterCall m r res = some m') (h1 : MemOk m.mem.length m.last) (h2 : m.stack.length + 1 ≤ 1024) : MachOk m' := by
  unfold afterCall at h
  dsimp only at h
  split at h
  · split at h
    · cases h
    · rename_i mem he
      cases h
      exact ⟨by dsimp only; rw [memSet_length he]; exact h1, h2⟩
  · cases h
    exact ⟨h1, h2⟩

theorem doCall_pays {env : Env} (hP : PrecompilesPay env) {fuel gas child : Nat} {R : Runner} (hR : RunnerPays fuel R) {ctx : Ctx} {r : CallReq} {w : World} (hg : gas < 2 ^ 64)
    (hc : child + (if r.value = 0#256 then 0 else 2300) ≤ gas) (hk : r.kind = .delegate ∨ r.kind = .static → r.value = 0#256) :
    Pays fuel (child + (if r.value = 0#256 then 0 else 2300)) (doCall env R ctx r child w) := by
  have hgas : (if r.value = 0#256 then child else add64 child 2300) = child + (if r.value = 0#256 then 0 else 2300) := by
    split
    · rfl
    · rename_i hv
      rw [if_neg hv] at hc
      exact Nat.mod_eq_of_lt (Nat.lt_of_le_of_lt hc hg)
  have hlt := Nat.lt_of_le_of_lt hc hg
  unfold doCall
  rw [hgas]
  dsimp only
  cases hkind : r.kind with
  | call => exact evmCall_pays hP hR hlt
  | callcode => exact evmCallCode_pays hP hR hlt
  | delegate =>
    have hv := hk (.inl hkind)
    rw [if_pos hv] at hlt ⊢
    exact evmDelegate_pays hP hR hlt
  | static =>
    have hv := hk (.inr hkind)
    rw [if_pos hv] at hlt ⊢
    exact evmStatic_pays hP hR hlt

theorem run_pays {env : Env} (hP : PrecompilesPay env) : ∀ fuel, RunnerPays fuel (run env fuel) := by
  intro fuel
  induction fuel with
  | zero => intro ctx w gas m _ _; exact ⟨Nat.le_refl _, fun h => absurd h (Nat.not_lt_zero _)⟩
  | succ fuel ih =>
    intro ctx w gas m hg hm
    have hs := step_facts env ctx w hg hm
    unfold run
    dsimp only
    generalize step env ctx w gas m = s at hs
    obtain ⟨hle, hs⟩ := hs
    cases hx : s.exec with
    | cont m' =>
      rw [hx] at hs
      obtain ⟨h1, h2, _⟩ := hs
      have := ih ctx s.world s.gas m' (Nat.lt_trans h1 hg) h2
      exact ⟨Nat.le_trans this.1 hle, fun h => this.2 (by omega)⟩
    | contW m' w' =>
      rw [hx] at hs
      obtain ⟨h1, h2, _⟩ := hs
      have := ih ctx w' s.gas m' (Nat.lt_trans h1 hg) h2
      exact ⟨Nat.le_trans this.1 hle, fun h => this.2 (by omega)⟩
    | stop ret => exact ⟨hle, fun _ => by simp⟩
    | stopW w' => exact ⟨hle, fun _ => by simp⟩
    | revert ret => exact ⟨hle, fun _ => by simp⟩
    | fail => exact ⟨hle, fun _ => by simp⟩
    | panic => exact ⟨hle, fun _ => by simp⟩
    | call r m' =>
      rw [hx] at hs
      obtain ⟨h1, h2, h3, _, _, h4, _⟩ := hs
      dsimp only
      have hd := doCall_pays hP ih (ctx := ctx) (w := s.world) hg (show s.child + (if r.value = 0#256 then 0 else 2300) ≤ gas by omega) h4
      generalize doCall env (run env fuel) ctx r s.child s.world = res at hd
      obtain ⟨d1, d2⟩ := hd
      split
      · exact ⟨by omega, fun h => d2 (by omega)⟩
      · split
        · exact ⟨hle, fun _ => by simp⟩
        · rename_i m'' he
          have e : add64 s.gas res.gas = s.gas + res.gas := Nat.mod_eq_of_lt (by omega)
          rw [e]
          have := ih ctx res.world (s.gas + res.gas) m'' (by omega) (afterCall_ok he h2 h3)
          exact ⟨by omega, fun h => this.2 (by omega)⟩
    | create r m' =>
      rw [hx] at hs
      obtain ⟨h1, h2, h3, _⟩ := hs
      dsimp only
      have hd := evmCreate_pays (env := env) ih (show s.gas - s.gas / 64 < 2 ^ 64 by omega) (depth := ctx.depth) (ro := ctx.readOnly) (caller := ctx.self)
        (addr := createAddress env ctx.self s.world r) (code := r.code) (value := (r.value.toNat : Int)) (w := s.world)
      generalize evmCreate env (run env fuel) ctx.depth ctx.readOnly ctx.self (createAddress env ctx.self s.world r) r.code (s.gas - s.gas / 64) (r.value.toNat : Int) s.world = res at hd
      obtain ⟨d1, d2⟩ := hd
      split
      · exact ⟨by omega, fun h => d2 (by omega)⟩
      · have e : add64 (s.gas - (s.gas - s.gas / 64)) res.gas = s.gas - (s.gas - s.gas / 64) + res.gas := Nat.mod_eq_of_lt (by omega)
        rw [e]
        have := ih ctx res.world (s.gas - (s.gas - s.gas / 64) + res.gas) (afterCreate m' (createAddress env ctx.self s.world r) res) (by omega) ⟨h2, h3⟩
        exact ⟨by omega, fun h => this.2 (by omega)⟩

/-! ### The result does not depend on the fuel -/

/-- The second runner does what the first does whenever that does not run out of fuel. -/
def Extends (R R' : Runner) : Prop := ∀ ctx w gas m, (R ctx w gas m).status ≠ .outOfFuel → R' ctx w gas m = R ctx w gas m

theorem finish_status (w : World) (r : Res) : (finish w r).status = r.status := by
  unfold finish
  cases hs : r.status <;> first | rfl | exact hs

theorem runCode_extends {R R' : Runner} (h : Extends R R') {ctx : Ctx} {w : World} {gas : Nat} (hs : (runCode R ctx w gas).status ≠ .outOfFuel) :
    runCode R' ctx w gas = runCode R ctx w gas := by
  unfold runCode at hs ⊢
  split
  · rfl
  · rename_i hc
    rw [if_neg hc] at hs
    exact h _ _ _ _ hs

theorem evmCall_extends {env : Env} {R R' : Runner} (h : Extends R R') {depth ro caller addr input gas value w}
    (hs : (evmCall env R depth ro caller addr input gas value w).status ≠ .outOfFuel) :
    evmCall env R' depth ro caller addr input gas value w = evmCall env R depth ro caller addr input gas value w := by
  unfold evmCall at hs ⊢
  split
  · rfl
  · rename_i h1
    split
    · rfl
    · rename_i h2
      split
      · rfl
      · rename_i h3
        split
        · rfl
        · rename_i h4
          rw [if_neg h1, if_neg h2, if_neg h3, if_neg h4] at hs
          dsimp only at hs ⊢
          rw [finish_status] at hs
          cases hp : env.precompile addr with
          | some p => rfl
          | none =>
            rw [hp] at hs
            dsimp only at hs ⊢
            rw [runCode_extends h hs]

theorem evmCallCode_extends {env : Env} {R R' : Runner} (h : Extends R R') {depth ro caller addr input gas value w}
    (hs : (evmCallCode env R depth ro caller addr input gas value w).status ≠ .outOfFuel) :
    evmCallCode env R' depth ro caller addr input gas value w = evmCallCode env R depth ro caller addr input gas value w := by
  unfold evmCallCode at hs ⊢
  split
  · rfl
  · rename_i h1
    split
    · rfl
    · rename_i h2
      split
      · rfl
      · rename_i h3
        rw [if_neg h1, if_neg h2, if_neg h3, finish_status] at hs
        cases hp : env.precompile addr with
        | some p => rfl
        | none =>
          rw [hp] at hs
          dsimp only at hs ⊢
          rw [runCode_extends h hs]

theorem evmDelegate_extends {env : Env} {R R' : Runner} (h : Extends R R') {ctx addr input gas w}
    (hs : (evmDelegate env R ctx addr input gas w).status ≠ .outOfFuel) : evmDelegate env R' ctx addr input gas w = evmDelegate env R ctx addr input gas w := by
  unfold evmDelegate at hs ⊢
  split
  · rfl
  · rename_i h1
    split
    · rfl
    · rename_i h2
      rw [if_neg h1, if_neg h2, finish_status] at hs
      cases hp : env.precompile addr with
      | some p => rfl
      | none =>
        rw [hp] at hs
        dsimp only at hs ⊢
        rw [runCode_extends h hs]

theorem evmStatic_extends {env : Env} {R R' : Runner} (h : Extends R R') {depth caller addr input gas w}
    (hs : (evmStatic env R depth caller addr input gas w).status ≠ .outOfFuel) : evmStatic env R' depth caller addr input gas w = evmStatic env R depth caller addr input gas w := by
  unfold evmStatic at hs ⊢
  split
  · rfl
  · rename_i h1
    split
    · rfl
    · rename_i h2
      rw [if_neg h1, if_neg h2] at hs
      dsimp only at hs ⊢
      rw [finish_status] at hs
      cases hp : env.precompile addr with
      | some p => rfl
      | none =>
        rw [hp] at hs
        dsimp only at hs ⊢
        rw [runCode_extends h hs]

theorem deposit_oof {a : Addr} {r : Res} (h : (deposit a r).status ≠ .outOfFuel) : r.status ≠ .outOfFuel := by
  intro hs
  unfold deposit at h
  rw [hs] at h
  exact h hs

theorem evmCreate_extends {env : Env} {R R' : Runner} (h : Extends R R') {depth ro caller addr code gas value w}
    (hs : (evmCreate env R depth ro caller addr code gas value w).status ≠ .outOfFuel) :
    evmCreate env R' depth ro caller addr code gas value w = evmCreate env R depth ro caller addr code gas value w := by
  unfold evmCreate at hs ⊢
  split
  · rfl
  · rename_i h1
    split
    · rfl
    · rename_i h2
      split
      · rfl
      · rename_i h3
        split
        · rfl
        · rename_i h4
          rw [if_neg h1, if_neg h2, if_neg h3, if_neg h4] at hs
          dsimp only at hs ⊢
          split
          · rfl
          · rename_i h5
            rw [if_neg h5, finish_status] at hs
            rw [runCode_extends h (deposit_oof hs)]

theorem doCall_extends {env : Env} {R R' : Runner} (h : Extends R R') {ctx : Ctx} {r : CallReq} {child : Nat} {w : World}
    (hs : (doCall env R ctx r child w).status ≠ .outOfFuel) : doCall env R' ctx r child w = doCall env R ctx r child w := by
  unfold doCall at hs ⊢
  dsimp only at hs ⊢
  cases hk : r.kind with
  | call => rw [hk] at hs; exact evmCall_extends h hs
  | callcode => rw [hk] at hs; exact evmCallCode_extends h hs
  | delegate => rw [hk] at hs; exact evmDelegate_extends h hs
  | static => rw [hk] at hs; exact evmStatic_extends h hs

theorem run_succ {env : Env} : ∀ fuel, Extends (run env fuel) (run env (fuel + 1)) := by
  intro fuel
  induction fuel with
  | zero => intro ctx w gas m h; exact absurd rfl h
  | succ fuel ih =>
    intro ctx w gas m h
    rw [run] at h
    rw [run, run]
    dsimp only at h ⊢
    generalize step env ctx w gas m = s at h
    cases hx : s.exec with
    | cont m' => rw [hx] at h; exact ih _ _ _ _ h
    | contW m' w' => rw [hx] at h; exact ih _ _ _ _ h
    | stop ret => rfl
    | stopW w' => rfl
    | revert ret => rfl
    | fail => rfl
    | panic => rfl
    | call r m' =>
      rw [hx] at h
      dsimp only at h ⊢
      by_cases hoof : (doCall env (run env fuel) ctx r s.child s.world).status = .outOfFuel
      · rw [if_pos (.inr hoof)] at h
        exact absurd hoof h
      · rw [doCall_extends ih hoof]
        generalize doCall env (run env fuel) ctx r s.child s.world = res at h
        split
        · rfl
        · rename_i h1
          rw [if_neg h1] at h
          cases ha : afterCall m' r res with
          | none => rfl
          | some m'' => rw [ha] at h; exact ih _ _ _ _ h
    | create r m' =>
      rw [hx] at h
      dsimp only at h ⊢
      generalize createAddress env ctx.self s.world r = addr at h
      generalize hv : (r.value.toNat : Int) = v at h
      by_cases hoof : (evmCreate env (run env fuel) ctx.depth ctx.readOnly ctx.self addr r.code (s.gas - s.gas / 64) v s.world).status = .outOfFuel
      · rw [if_pos (.inr hoof)] at h
        exact absurd hoof h
      · rw [evmCreate_extends ih hoof]
        generalize evmCreate env (run env fuel) ctx.depth ctx.readOnly ctx.self addr r.code (s.gas - s.gas / 64) v s.world = res at h
        split
        · rfl
        · rename_i h1
          rw [if_neg h1] at h
          exact ih _ _ _ _ h

theorem run_more {env : Env} {fuel : Nat} : ∀ k, Extends (run env fuel) (run env (fuel + k)) := by
  intro k
  induction k with
  | zero => intro _ _ _ _ _; rfl
  | succ k ih =>
    intro ctx w gas m h
    have e := ih ctx w gas m h
    rw [← e] at h
    rw [← Nat.add_assoc, run_succ (fuel + k) ctx w gas m h, e]

/-! ### Theorems -/

/-- A call with any code, input, state and value: with fuel above the gas it ends, and at most the gas given is left. -/
theorem call_terminates {env : Env} (hP : PrecompilesPay env) {fuel gas : Nat} (hg : gas < 2 ^ 64) (hf : gas < fuel) (depth : Nat) (ro : Bool) (caller addr : Addr)
    (input : List UInt8) (value : Int) (w : World) :
    let r := evmCall env (run env fuel) depth ro caller addr input gas value w
    r.status ≠ .outOfFuel ∧ r.gas ≤ gas := by
  have := evmCall_pays hP (run_pays hP fuel) hg (depth := depth) (ro := ro) (caller := caller) (addr := addr) (input := input) (value := value) (w := w)
  exact ⟨this.2 hf, this.1⟩

/-- The same for creations. -/
theorem create_terminates {env : Env} (hP : PrecompilesPay env) {fuel gas : Nat} (hg : gas < 2 ^ 64) (hf : gas < fuel) (depth : Nat) (ro : Bool) (caller addr : Addr)
    (code : List UInt8) (value : Int) (w : World) :
    let r := evmCreate env (run env fuel) depth ro caller addr code gas value w
    r.status ≠ .outOfFuel ∧ r.gas ≤ gas := by
  have := evmCreate_pays (env := env) (run_pays hP fuel) hg (depth := depth) (ro := ro) (caller := caller) (addr := addr) (code := code) (value := value) (w := w)
  exact ⟨this.2 hf, this.1⟩

/-- The result is the same for every sufficient fuel, so it is a function of the arguments: execution is deterministic. -/
theorem call_fuel_irrelevant {env : Env} (hP : PrecompilesPay env) {f1 f2 gas : Nat} (hg : gas < 2 ^ 64) (h1 : gas < f1) (h2 : gas < f2) (depth : Nat) (ro : Bool)
    (caller addr : Addr) (input : List UInt8) (value : Int) (w : World) :
    evmCall env (run env f1) depth ro caller addr input gas value w = evmCall env (run env f2) depth ro caller addr input gas value w := by
  have key : ∀ k, evmCall env (run env (gas + 1 + k)) depth ro caller addr input gas value w = evmCall env (run env (gas + 1)) depth ro caller addr input gas value w := by
    intro k
    exact evmCall_extends (run_more k) (call_terminates hP hg (Nat.lt_succ_self gas) depth ro caller addr input value w).1
  rw [show f1 = gas + 1 + (f1 - (gas + 1)) by omega, show f2 = gas + 1 + (f2 - (gas + 1)) by omega, key, key]

/-! ### Examples -/

/-- A small chain for examples: no precompiled contracts, a toy hash. -/
def demoEnv : Env where
  origin := 0x11#160
  gasPrice := 1#256
  coinbase := 0xc0#160
  time := 1000#256
  number := 7
  difficulty := 0#256
  gasLimit := 30000000
  chainId := 42#256
  baseFee := 1#256
  blockHash := fun n => BitVec.ofNat 256 n
  keccak := fun b => BitVec.ofNat 256 (Bytes.unbe b + 1)
  createAddr := fun a n => a + BitVec.ofNat 160 (0x1000 + n)
  create2Addr := fun a s _ => a + (s.setWidth 160)
  push0 := true
  callHook := fun _ _ => true
  createHook := fun _ => true
  precompile := fun _ => none

/-- An account with funds and contracts with the given code. -/
def demoWorld (contracts : List (Addr × List UInt8)) : World where
  accts := (0x11#160, { balance := 1000, nonce := 5 }) :: contracts.map (fun c => (c.1, { code := c.2, nonce := 1, balance := 10 }))
  store := fun _ _ => 0#256
  warmA := fun a => decide (a = 0x11#160) || contracts.any (fun c => decide (c.1 = a))
  warmS := fun _ _ => false
  refund := 0
  logs := []
  burnt := 0

example : PrecompilesPay demoEnv := fun _ _ h => nomatch h

/-- An endless loop: `JUMPDEST PUSH1 0 JUMP`. It ends when the gas is used up. -/
example : let r := evmCall demoEnv (run demoEnv 501) 0 false 0x11#160 0xaa#160 [] 500 0 (demoWorld [(0xaa#160, [0x5b, 0x60, 0, 0x56])])
    r.status = .fail ∧ r.gas = 0 := by decide +kernel

/-- A contract that calls itself with all its gas: `PUSH1 0` (five times) `ADDRESS GAS CALL STOP`. -/
def selfCaller : List UInt8 := [0x60, 0, 0x60, 0, 0x60, 0, 0x60, 0, 0x60, 0, 0x30, 0x5a, 0xf1, 0x00]
example : let r := evmCall demoEnv (run demoEnv 5001) 0 false 0x11#160 0xaa#160 [] 5000 0 (demoWorld [(0xaa#160, selfCaller)])
    r.status = .ok ∧ r.gas ≤ 5000 ∧ 0 < r.gas := by decide +kernel

end VM
