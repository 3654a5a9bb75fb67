import Verif.VM.StaticProps
/-!
# Failed calls leave no trace (C69)

A call that reverts or fails gives back exactly the state it was made in: storage, balances, logs, refunds and the access list. A failing creation leaves only
the incremented nonce of the creator (and the warm address), or nothing if it was refused.
-/
namespace VM

theorem finish_undoes {w : World} {r : Res} (h : (finish w r).status = .reverted ∨ (finish w r).status = .fail) : (finish w r).world = w := by
  rw [finish_status] at h
  unfold finish
  rcases h with h | h <;> rw [h]

/-- A failed frame uses up its gas, a reverted one does not. -/
theorem finish_fail_gas {w : World} {r : Res} (h : (finish w r).status = .fail) : (finish w r).gas = 0 := by
  rw [finish_status] at h
  unfold finish
  rw [h]

/-- A result that undoes its changes if it is a revert or a failure. -/
def Undoes (w : World) (r : Res) : Prop := r.status = .reverted ∨ r.status = .fail → r.world = w

theorem evmCall_undoes (env : Env) (R : Runner) (depth : Nat) (ro : Bool) (caller addr : Addr) (input : List UInt8) (gas : Nat) (value : Int) (w : World) :
    Undoes w (evmCall env R depth ro caller addr input gas value w) := by
  unfold evmCall
  repeat' split
  all_goals first
    | exact fun _ => rfl
    | exact finish_undoes

theorem evmCallCode_undoes (env : Env) (R : Runner) (depth : Nat) (ro : Bool) (caller addr : Addr) (input : List UInt8) (gas : Nat) (value : Int) (w : World) :
    Undoes w (evmCallCode env R depth ro caller addr input gas value w) := by
  unfold evmCallCode
  repeat' split
  all_goals first
    | exact fun _ => rfl
    | exact finish_undoes

theorem evmDelegate_undoes (env : Env) (R : Runner) (ctx : Ctx) (addr : Addr) (input : List UInt8) (gas : Nat) (w : World) :
    Undoes w (evmDelegate env R ctx addr input gas w) := by
  unfold evmDelegate
  repeat' split
  all_goals first
    | exact fun _ => rfl
    | exact finish_undoes

theorem evmStatic_undoes (env : Env) (R : Runner) (depth : Nat) (caller addr : Addr) (input : List UInt8) (gas : Nat) (w : World) :
    Undoes w (evmStatic env R depth caller addr input gas w) := by
  unfold evmStatic
  repeat' split
  all_goals first
    | exact fun _ => rfl
    | exact finish_undoes

/-! ### Theorems -/

/-- A call instruction of any kind, whatever the callee's code does: if it does not succeed, the caller goes on with exactly the state before it. -/
theorem failed_call_leaves_no_trace (env : Env) (R : Runner) (ctx : Ctx) (r : CallReq) (child : Nat) (w : World)
    (h : (doCall env R ctx r child w).status = .reverted ∨ (doCall env R ctx r child w).status = .fail) : (doCall env R ctx r child w).world = w := by
  unfold doCall at h ⊢
  dsimp only at h ⊢
  cases hk : r.kind with
  | call => rw [hk] at h; exact evmCall_undoes _ _ _ _ _ _ _ _ _ _ h
  | callcode => rw [hk] at h; exact evmCallCode_undoes _ _ _ _ _ _ _ _ _ _ h
  | delegate => rw [hk] at h; exact evmDelegate_undoes _ _ _ _ _ _ _ h
  | static => rw [hk] at h; exact evmStatic_undoes _ _ _ _ _ _ _ _ h

/-- The same for the call of a transaction. -/
theorem failed_transaction_leaves_no_trace (env : Env) (R : Runner) (depth : Nat) (ro : Bool) (caller addr : Addr) (input : List UInt8) (gas : Nat) (value : Int) (w : World)
    (h : (evmCall env R depth ro caller addr input gas value w).status = .reverted ∨ (evmCall env R depth ro caller addr input gas value w).status = .fail) :
    (evmCall env R depth ro caller addr input gas value w).world = w := evmCall_undoes env R depth ro caller addr input gas value w h

/-- A transaction's call that fails for any reason but `REVERT` uses up all its gas, unless it was refused before it began. -/
theorem failed_call_uses_gas (env : Env) (R : Runner) (depth : Nat) (ro : Bool) (caller addr : Addr) (input : List UInt8) (gas : Nat) (value : Int) (w : World)
    (h : (evmCall env R depth ro caller addr input gas value w).status = .fail) :
    (evmCall env R depth ro caller addr input gas value w).gas = 0 ∨ env.callHook caller addr = false ∨ depth > 1024 ∨ w.balance caller < value := by
  have main : ∀ r : Res, r = evmCall env R depth ro caller addr input gas value w → r.status = .fail →
      r.gas = 0 ∨ env.callHook caller addr = false ∨ depth > 1024 ∨ w.balance caller < value := by
    intro r hr
    unfold evmCall at hr
    split at hr
    · rename_i h; exact fun _ => .inr (.inl h)
    · split at hr
      · rename_i h; exact fun _ => .inr (.inr (.inl h))
      · split at hr
        · rename_i h; exact fun _ => .inr (.inr (.inr h.2))
        · split at hr
          · intro h; rw [hr] at h; cases h
          · intro h
            rw [hr] at h ⊢
            exact .inl (finish_fail_gas h)
  exact main _ rfl h

/-- Why a creation is refused before it begins. -/
def CreateRefused (env : Env) (depth : Nat) (caller : Addr) (value : Int) (w : World) : Prop :=
  env.createHook caller = false ∨ depth > 1024 ∨ w.balance caller < value ∨ w.nonce caller = 2 ^ 64 - 1

/-- A failing creation: nothing happened if it was refused; otherwise the creator's nonce went up by one and the address is warm. -/
theorem failed_create_leaves_nonce (env : Env) (R : Runner) (depth : Nat) (ro : Bool) (caller addr : Addr) (code : List UInt8) (gas : Nat) (value : Int) (w : World)
    (hbig : w.nonce caller < 2 ^ 64)
    (h : (evmCreate env R depth ro caller addr code gas value w).status = .reverted ∨ (evmCreate env R depth ro caller addr code gas value w).status = .fail) :
    (CreateRefused env depth caller value w ∧ (evmCreate env R depth ro caller addr code gas value w).world = w ∧
      (evmCreate env R depth ro caller addr code gas value w).gas = gas) ∨
    (¬ CreateRefused env depth caller value w ∧
      (evmCreate env R depth ro caller addr code gas value w).world = (w.setNonce caller (w.nonce caller + 1)).warmAddr addr) := by
  have h64 : (2:Nat)^64 = 18446744073709551616 := by decide
  have hn : add64 (w.nonce caller) 1 < w.nonce caller ↔ w.nonce caller = 2 ^ 64 - 1 := by
    unfold add64
    rw [h64] at hbig ⊢
    omega
  have hn' : ¬ w.nonce caller = 2 ^ 64 - 1 → add64 (w.nonce caller) 1 = w.nonce caller + 1 := by
    intro hne
    unfold add64
    rw [h64] at hbig hne ⊢
    omega
  have main : ∀ r : Res, r = evmCreate env R depth ro caller addr code gas value w → r.status = .reverted ∨ r.status = .fail →
      (CreateRefused env depth caller value w ∧ r.world = w ∧ r.gas = gas) ∨
      (¬ CreateRefused env depth caller value w ∧ r.world = (w.setNonce caller (w.nonce caller + 1)).warmAddr addr) := by
    intro r hr
    unfold evmCreate at hr
    split at hr
    · rename_i h; exact fun _ => .inl ⟨.inl h, by rw [hr]; exact ⟨rfl, rfl⟩⟩
    · rename_i h1
      split at hr
      · rename_i h; exact fun _ => .inl ⟨.inr (.inl h), by rw [hr]; exact ⟨rfl, rfl⟩⟩
      · rename_i h2
        split at hr
        · rename_i h; exact fun _ => .inl ⟨.inr (.inr (.inl h)), by rw [hr]; exact ⟨rfl, rfl⟩⟩
        · rename_i h3
          split at hr
          · rename_i h; exact fun _ => .inl ⟨.inr (.inr (.inr (hn.1 h))), by rw [hr]; exact ⟨rfl, rfl⟩⟩
          · rename_i h4
            have hnot : ¬ CreateRefused env depth caller value w := by
              rintro (h | h | h | h)
              · exact h1 h
              · exact h2 h
              · exact h3 h
              · exact h4 (hn.2 h)
            dsimp only at hr
            rw [hn' (fun h => h4 (hn.2 h))] at hr
            split at hr
            · exact fun _ => .inr ⟨hnot, by rw [hr]; rfl⟩
            · intro hs
              rw [hr] at hs ⊢
              exact .inr ⟨hnot, finish_undoes hs⟩
  exact main _ rfl h

/-! ### Examples -/

/-- `writer` followed by `REVERT`: the storage written is undone, the gas that is left comes back. -/
def writeAndRevert : List UInt8 := [0x60, 1, 0x60, 0, 0x55, 0x60, 0, 0x60, 0, 0xfd]
example : let r := evmCall demoEnv (run demoEnv 60000) 0 false 0x11#160 0xaa#160 [] 50000 7 (demoWorld [(0xaa#160, writeAndRevert)])
    r.status = .reverted ∧ 0 < r.gas ∧ r.world.balance 0xaa#160 = 10 := by decide +kernel
/-- Out of gas after the write. -/
example : let r := evmCall demoEnv (run demoEnv 60000) 0 false 0x11#160 0xaa#160 [] 22110 7 (demoWorld [(0xaa#160, writeAndRevert)])
    r.status = .fail ∧ r.gas = 0 ∧ r.world.balance 0x11#160 = 1000 := by decide +kernel
/-- Init code that fails: the nonce stays at 6. -/
example : let r := evmCreate demoEnv (run demoEnv 60000) 0 false 0x11#160 0xbb#160 [0xfe] 50000 7 (demoWorld [])
    r.status = .fail ∧ r.world.nonce 0x11#160 = 6 ∧ r.world.balance 0x11#160 = 1000 ∧ r.world.exist 0xbb#160 = false := by decide +kernel

end VM
