import Verif.VM.InterpLemmas
/-! # What the gas functions do: lemmas -/
namespace VM

/-- The second state differs only in the access list, which grew, and the refund counter. -/
structure Warms (w w' : World) : Prop where
  accts : w'.accts = w.accts
  store : w'.store = w.store
  logs : w'.logs = w.logs
  burnt : w'.burnt = w.burnt
  warmA : ∀ a, w.warmA a = true → w'.warmA a = true
  warmS : ∀ a k, w.warmS a k = true → w'.warmS a k = true

theorem Warms.refl (w : World) : Warms w w := ⟨rfl, rfl, rfl, rfl, fun _ h => h, fun _ _ h => h⟩

theorem Warms.addr (w : World) (a : Addr) : Warms w (w.warmAddr a) := by
  refine ⟨rfl, rfl, rfl, rfl, ?_, fun _ _ h => h⟩
  intro b h
  unfold World.warmAddr setAt
  dsimp only
  split
  · rfl
  · exact h

theorem Warms.slot (w : World) (a : Addr) (k : Word) : Warms w (w.warmSlot a k) := by
  refine ⟨rfl, rfl, rfl, rfl, ?_, ?_⟩
  · intro b h
    unfold World.warmSlot setAt
    dsimp only
    split
    · rfl
    · exact h
  · intro b j h
    unfold World.warmSlot
    dsimp only
    split
    · rfl
    · exact h

theorem Warms.acct {w w' : World} (h : Warms w w') (a : Addr) : w'.acct a = w.acct a := by unfold World.acct; rw [h.accts]
theorem Warms.balance {w w' : World} (h : Warms w w') (a : Addr) : w'.balance a = w.balance a := by unfold World.balance; rw [h.acct]
theorem Warms.state {w w' : World} (h : Warms w w') (a : Addr) (k : Word) : w'.state a k = w.state a k := by unfold World.state; rw [h.acct, h.store]

/-- What a gas function may do. -/
def DynFacts (ctx : Ctx) (m : Mach) (w : World) (gas size : Nat) (op : Op) : GasRes → Prop
  | .panic => ∃ k v rest, op = .sstore ∧ m.stack = k :: v :: rest ∧ sstoreDyn m w ctx.self gas k v = .panic
  | .fail _ => True
  | .ok cost child last w1 =>
    MemOk (max m.mem.length size) last ∧ Warms w w1 ∧ (op ≠ .sstore → w1.refund = w.refund) ∧
    (op = .exp ∨ op = .sload ∨ op = .sstore ∨ (∃ n, op = .log n) → 10 ≤ cost) ∧
    (∀ k v rest, op = .sstore → m.stack = k :: v :: rest → sstoreDyn m w ctx.self gas k v = .ok cost child last w1) ∧
    (cost ≤ gas → ∀ k, op = .call k →
      (k = .call ∨ k = .callcode → ∀ g a v rest, m.stack = g :: a :: v :: rest → child + (if v = 0#256 then 0 else 9000) ≤ cost ∧
        (g.toNat ≤ (gas - (cost - child)) - (gas - (cost - child)) / 64 → child = g.toNat) ∧ child ≤ (gas - (cost - child)) - (gas - (cost - child)) / 64) ∧
      (k = .delegate ∨ k = .static → child ≤ cost)) ∧
    (∀ k, op = .call k → ∀ g a rest, m.stack = g :: a :: rest → w1.warmA (toAddr a) = true)

/-- The memory size has been rounded up. -/
theorem size_words {n size : Nat} (h : safeMul (toWordSize n) 32 = some size) : size % 32 = 0 ∧ n ≤ size := by
  have h64 : (2 : Nat) ^ 64 = 18446744073709551616 := by decide
  unfold safeMul at h
  rw [h64] at h
  split at h
  · rename_i h1
    injection h with h
    unfold toWordSize at h h1
    rw [h64] at h h1
    by_cases h2 : n > 18446744073709551616 - 1 - 31
    · rw [if_pos h2] at h1; omega
    · rw [if_neg h2] at h; omega
  · cases h

theorem size_zero {size : Nat} (h : safeMul (toWordSize 0) 32 = some size) : size = 0 := by
  have : safeMul (toWordSize 0) 32 = some 0 := by decide
  rw [this] at h
  exact (Option.some.inj h).symm

theorem memOk_same {len last size : Nat} (h : MemOk len last) (hs : size = 0) : MemOk (max len size) last := by
  rw [hs, Nat.max_eq_left (Nat.zero_le _)]
  exact h

theorem memOk_grow {len last size fee last' : Nat} (h : MemOk len last) (hs : size % 32 = 0) (he : memoryGasCost len last size = some (fee, last')) :
    MemOk (max len size) last' ∧ fee ≤ 2 ^ 56 := by
  rcases expansion_fee (newSize := size) h with ⟨_, e⟩ | ⟨_, f, l, e, h1, _, h2, _⟩
  · rw [e] at he; cases he
  · rw [e] at he
    injection he with he
    injection he with e1 e2
    subst e1 e2
    rw [show (size + 31) / 32 * 32 = size by omega] at h1
    exact ⟨h1, h2⟩

theorem memGas_ok {m : Mach} {w w1 : World} {size cost child last : Nat} {more : Nat → Option Nat} (hm : MemOk m.mem.length m.last) (hs : size % 32 = 0)
    (h : memGas m w size more = .ok cost child last w1) :
    MemOk (max m.mem.length size) last ∧ w1 = w ∧ child = 0 ∧ ∃ fee, fee ≤ 2 ^ 56 ∧ more fee = some cost := by
  unfold memGas at h
  split at h
  · cases h
  · rename_i fee l he
    split at h
    · cases h
    · rename_i g hg
      cases h
      have := memOk_grow hm hs he
      exact ⟨this.1, rfl, rfl, fee, this.2, hg⟩

theorem memGas_no_panic {m : Mach} {w : World} {size : Nat} {more : Nat → Option Nat} : memGas m w size more ≠ .panic := by
  unfold memGas
  intro h
  split at h
  · cases h
  · split at h <;> cases h

/-- Facts for an instruction whose gas function is that of the memory plus something. -/
theorem memGas_facts {ctx : Ctx} {m : Mach} {w : World} {gas size : Nat} {op : Op} {more : Nat → Option Nat} (hm : MemOk m.mem.length m.last)
    (hs : size % 32 = 0) (h1 : op ≠ .sstore) (h2 : ∀ k, op ≠ .call k) (h3 : (op = .exp ∨ op = .sload ∨ op = .sstore ∨ (∃ n, op = .log n)) → ∀ fee c, more fee = some c → 10 ≤ c) :
    DynFacts ctx m w gas size op (memGas m w size more) := by
  cases h : memGas m w size more with
  | panic => exact absurd h memGas_no_panic
  | fail _ => exact trivial
  | ok cost child last w1 =>
    obtain ⟨a, b, _, fee, _, c⟩ := memGas_ok hm hs h
    subst b
    exact ⟨a, Warms.refl _, fun _ => rfl, fun h => h3 h _ _ c, fun _ _ _ h => absurd h h1, fun _ k h => absurd h (h2 k), fun k h => absurd h (h2 k)⟩

/-- Facts for an instruction with a fixed cost. -/
theorem fixed_facts {ctx : Ctx} {m : Mach} {w w1 : World} {gas size cost : Nat} {op : Op} (hm : MemOk m.mem.length m.last)
    (hs : size = 0) (h1 : op ≠ .sstore) (h2 : ∀ k, op ≠ .call k) (h3 : (op = .exp ∨ op = .sload ∨ op = .sstore ∨ (∃ n, op = .log n)) → 10 ≤ cost) (hw : Warms w w1)
    (hr : w1.refund = w.refund) : DynFacts ctx m w gas size op (.ok cost 0 m.last w1) :=
  ⟨memOk_same hm hs, hw, fun _ => hr, h3, fun _ _ _ h => absurd h h1, fun _ k h => absurd h (h2 k), fun k h => absurd h (h2 k)⟩

theorem callGasDyn_no_panic {m : Mach} {w : World} {gas size own : Nat} {a : Addr} {asked : Word} : callGasDyn m w gas size a own asked ≠ .panic := by
  intro h
  unfold callGasDyn at h
  dsimp only at h
  generalize (if w.warmA a = true then w else w.warmAddr a) = ww at *
  generalize (if w.warmA a = true then 0 else 2500) = cold0 at h
  split at h
  · cases h
  · split at h
    · cases h
    · split at h <;> cases h

theorem callGasDyn_facts {m : Mach} {w w1 : World} {gas size cost child last own : Nat} {a : Addr} {asked : Word} (hg : gas < 2 ^ 64)
    (hm : MemOk m.mem.length m.last) (hs : size % 32 = 0) (hown : own ≤ 34000) (h : callGasDyn m w gas size a own asked = .ok cost child last w1) :
    MemOk (max m.mem.length size) last ∧ Warms w w1 ∧ w1.refund = w.refund ∧ w1.warmA a = true ∧ (cost ≤ gas → child + own ≤ cost ∧
      (asked.toNat ≤ (gas - (cost - child)) - (gas - (cost - child)) / 64 → child = asked.toNat) ∧ child ≤ (gas - (cost - child)) - (gas - (cost - child)) / 64) := by
  unfold callGasDyn at h
  have hw : Warms w (if w.warmA a then w else w.warmAddr a) := by
    split
    · exact Warms.refl _
    · exact Warms.addr _ _
  have hr : (if w.warmA a then w else w.warmAddr a).refund = w.refund := by split <;> rfl
  have ha : (if w.warmA a then w else w.warmAddr a).warmA a = true := by
    split
    · assumption
    · exact setAt_same _ _ _
  dsimp only at h
  generalize (if w.warmA a = true then w else w.warmAddr a) = ww at *
  generalize (if w.warmA a = true then 0 else 2500) = cold0 at h
  split at h
  · cases h
  · split at h
    · cases h
    · rename_i fee l he
      split at h
      · cases h
      · rename_i c ch hc
        cases h
        have := memOk_grow hm hs he
        refine ⟨this.1, hw, hr, ha, ?_⟩
        intro hpay
        have hcs := call_gas_sound hg hown this.2 hc hpay
        dsimp only at hcs
        generalize (if w.warmA a = true then 0 else 2500) = cold at hcs
        obtain ⟨e1, e2, e3, e4, _⟩ := hcs
        have e5 : cost - child = own + fee + cold := by omega
        rw [e5]
        exact ⟨by omega, e4, e3⟩

theorem sstoreGas_min {clearing : Nat} {warm : Bool} {orig cur value : Word} {refund cost refund' : Nat}
    (h : sstoreGas clearing warm orig cur value refund = some (cost, refund')) : 100 ≤ cost := by
  unfold sstoreGas at h
  dsimp only at h
  generalize (if warm = true then 0 else 2100 : Nat) = cold at *
  split at h
  · cases h; omega
  · split at h
    · split at h
      · cases h; omega
      · injection h with h; injection h with h1 h2; omega
    · split at h
      · cases h
      · split at h
        · split at h
          · cases h; omega
          · cases h; omega
        · cases h; omega

theorem sstoreDyn_ok {m : Mach} {w w1 : World} {self : Addr} {gas cost child last : Nat} {k v : Word} (h : sstoreDyn m w self gas k v = .ok cost child last w1) :
    last = m.last ∧ Warms w w1 ∧ 100 ≤ cost ∧ child = 0 ∧ 2300 < gas ∧
      sstoreGas 4800 (w.warmS self k) (w.committed self k) (w.state self k) v w.refund = some (cost, w1.refund) := by
  unfold sstoreDyn at h
  split at h
  · cases h
  · rename_i hgas
    split at h
    · cases h
    · have hw : Warms w (if w.warmS self k then w else w.warmSlot self k) := by
        split
        · exact Warms.refl _
        · exact Warms.slot _ _ _
      dsimp only at h
      generalize (if w.warmS self k = true then w else w.warmSlot self k) = ww at *
      split at h
      · cases h
      · rename_i c r he
        cases h
        exact ⟨rfl, ⟨hw.accts, hw.store, hw.logs, hw.burnt, hw.warmA, hw.warmS⟩, sstoreGas_min he, rfl, Nat.lt_of_not_le hgas, he⟩

theorem callOwn_le (w : World) (a : Addr) (v : Word) : callOwn w a v ≤ 34000 ∧ (if v = 0#256 then 0 else 9000) ≤ callOwn w a v := by
  unfold callOwn
  by_cases hv : v = 0#256
  · simp [hv]
  · simp only [ne_eq, hv, not_false_eq_true, true_and, ↓reduceIte]
    split <;> omega

theorem dyn_facts {ctx : Ctx} {m : Mach} {w : World} {gas n size : Nat} {op : Op} (hg : gas < 2 ^ 64) (hm : MemOk m.mem.length m.last)
    (hp : pops op ≤ m.stack.length) (hsz : memSize op m.stack = some (some n)) (hs : safeMul (toWordSize n) 32 = some size) :
    DynFacts ctx m w gas size op (dynGas ctx m w gas size op) := by
  have h32 := (size_words hs).1
  have fix : ∀ {op : Op}, memSize op m.stack = some (some 0) → memSize op m.stack = some (some n) → size = 0 := by
    intro op h1 h2
    rw [h1] at h2
    injection h2 with h2
    injection h2 with h2
    subst h2
    exact size_zero hs
  cases op with
  | exp =>
    obtain ⟨x0, x1, rest, hst⟩ := stack2 hp
    simp only [dynGas, hst]
    exact fixed_facts hm (fix rfl hsz) (by simp) (by simp) (fun _ => by unfold expGas; omega) (Warms.refl _) rfl
  | keccak =>
    obtain ⟨x0, x1, rest, hst⟩ := stack2 hp
    simp only [dynGas, hst]
    exact memGas_facts hm h32 (by simp) (by simp) (by simp)
  | balance =>
    obtain ⟨x0, rest, hst⟩ := stack1 hp
    simp only [dynGas, hst, accountGas]
    split
    · exact fixed_facts hm (fix rfl hsz) (by simp) (by simp) (by simp) (Warms.refl _) rfl
    · exact fixed_facts hm (fix rfl hsz) (by simp) (by simp) (by simp) (Warms.addr _ _) rfl
  | extcodesize =>
    obtain ⟨x0, rest, hst⟩ := stack1 hp
    simp only [dynGas, hst, accountGas]
    split
    · exact fixed_facts hm (fix rfl hsz) (by simp) (by simp) (by simp) (Warms.refl _) rfl
    · exact fixed_facts hm (fix rfl hsz) (by simp) (by simp) (by simp) (Warms.addr _ _) rfl
  | extcodehash =>
    obtain ⟨x0, rest, hst⟩ := stack1 hp
    simp only [dynGas, hst, accountGas]
    split
    · exact fixed_facts hm (fix rfl hsz) (by simp) (by simp) (by simp) (Warms.refl _) rfl
    · exact fixed_facts hm (fix rfl hsz) (by simp) (by simp) (by simp) (Warms.addr _ _) rfl
  | copy o =>
    obtain ⟨x0, x1, x2, rest, hst⟩ := stack3 hp
    simp only [dynGas, hst]
    exact memGas_facts hm h32 (by simp) (by simp) (by simp)
  | extcodecopy =>
    obtain ⟨x0, x1, x2, x3, rest, hst⟩ := stack4 hp
    simp only [dynGas, hst]
    cases hmg : memGas m w size (wordGas 3 x3) with
    | panic => exact absurd hmg memGas_no_panic
    | fail _ => exact trivial
    | ok cost child last w1 =>
      obtain ⟨a, b, _, fee, _, c⟩ := memGas_ok hm h32 hmg
      dsimp only
      split
      · exact ⟨a, Warms.refl _, fun _ => rfl, by simp, by simp, by simp, by simp⟩
      · cases safeAdd cost 2500 with
        | none => exact trivial
        | some g => exact ⟨a, Warms.addr _ _, fun _ => rfl, by simp, by simp, by simp, by simp⟩
  | mload => exact memGas_facts (op := .mload) (more := some) hm h32 (by simp) (by simp) (by simp)
  | mstore => exact memGas_facts (op := .mstore) (more := some) hm h32 (by simp) (by simp) (by simp)
  | mstore8 => exact memGas_facts (op := .mstore8) (more := some) hm h32 (by simp) (by simp) (by simp)
  | create => exact memGas_facts (op := .create) (more := some) hm h32 (by simp) (by simp) (by simp)
  | ret => exact memGas_facts (op := .ret) (more := some) hm h32 (by simp) (by simp) (by simp)
  | revert => exact memGas_facts (op := .revert) (more := some) hm h32 (by simp) (by simp) (by simp)
  | create2 =>
    obtain ⟨x0, x1, x2, x3, rest, hst⟩ := stack4 hp
    simp only [dynGas, hst]
    exact memGas_facts hm h32 (by simp) (by simp) (by simp)
  | sload =>
    obtain ⟨x0, rest, hst⟩ := stack1 hp
    simp only [dynGas, hst, sloadGas]
    split
    · exact fixed_facts hm (fix rfl hsz) (by simp) (by simp) (fun _ => by decide) (Warms.refl _) rfl
    · exact fixed_facts hm (fix rfl hsz) (by simp) (by simp) (fun _ => by decide) (Warms.slot _ _ _) rfl
  | sstore =>
    obtain ⟨x0, x1, rest, hst⟩ := stack2 hp
    simp only [dynGas, hst]
    cases h : sstoreDyn m w ctx.self gas x0 x1 with
    | panic => exact ⟨x0, x1, rest, rfl, hst, h⟩
    | fail _ => exact trivial
    | ok cost child last w1 =>
      obtain ⟨a, b, c, _⟩ := sstoreDyn_ok h
      subst a
      refine ⟨memOk_same hm (fix rfl hsz), b, by simp, fun _ => by omega, ?_, by simp, by simp⟩
      intro k v rest' _ e
      rw [hst] at e
      injection e with e1 e2
      injection e2 with e2 _
      subst e1 e2
      exact h
  | log k =>
    simp only [pops] at hp
    obtain ⟨x0, x1, rest, hst⟩ := stack2 (show 2 ≤ m.stack.length by omega)
    simp only [dynGas, hst]
    refine memGas_facts hm h32 (by simp) (by simp) (fun _ fee c h => ?_)
    unfold logGas safeAdd at h
    split at h
    · split at h
      · cases h
      · rename_i g hg'
        split at hg'
        · cases hg'
          split at h
          · cases h
          · rename_i g2 hg2
            split at hg2
            · cases hg2
              split at h
              · cases h
              · split at h
                · cases h; omega
                · cases h
            · cases hg2
        · cases hg'
    · cases h
  | call k =>
    cases k with
    | call =>
      obtain ⟨x0, x1, x2, x3, x4, x5, x6, rest, hst⟩ := stack7 hp
      simp only [dynGas, hst]
      have ho := callOwn_le w (toAddr x1) x2
      cases h : callGasDyn m w gas size (toAddr x1) (callOwn w (toAddr x1) x2) x0 with
      | panic => exact absurd h callGasDyn_no_panic
      | fail _ => exact trivial
      | ok cost child last w1 =>
        obtain ⟨a, b, c, hwarm, d⟩ := callGasDyn_facts hg hm h32 ho.1 h
        refine ⟨a, b, fun _ => c, by simp, by simp, ?_, fun _ _ g' a' rest' e => by rw [hst] at e; injection e with e1 e2; injection e2 with e2 _; subst e2; exact hwarm⟩
        intro hpay k hk
        injection hk with hk
        subst hk
        refine ⟨?_, by simp⟩
        intro _ g' a' v' rest' e
        rw [hst] at e
        injection e with e1 e2
        injection e2 with e2 e3
        injection e3 with e3 _
        subst e1 e3
        have := d hpay
        exact ⟨by omega, this.2⟩
    | callcode =>
      obtain ⟨x0, x1, x2, x3, x4, x5, x6, rest, hst⟩ := stack7 hp
      simp only [dynGas, hst]
      cases h : callGasDyn m w gas size (toAddr x1) (if x2 ≠ 0#256 then 9000 else 0) x0 with
      | panic => exact absurd h callGasDyn_no_panic
      | fail _ => exact trivial
      | ok cost child last w1 =>
        obtain ⟨a, b, c, hwarm, d⟩ := callGasDyn_facts hg hm h32 (by split <;> omega) h
        refine ⟨a, b, fun _ => c, by simp, by simp, ?_, fun _ _ g' a' rest' e => by rw [hst] at e; injection e with e1 e2; injection e2 with e2 _; subst e2; exact hwarm⟩
        intro hpay k hk
        injection hk with hk
        subst hk
        refine ⟨?_, by simp⟩
        intro _ g' a' v' rest' e
        rw [hst] at e
        injection e with e1 e2
        injection e2 with e2 e3
        injection e3 with e3 _
        subst e1 e3
        have := d hpay
        refine ⟨?_, this.2⟩
        have h1 := this.1
        by_cases hv : x2 = 0#256 <;> simp [hv] at h1 ⊢ <;> exact h1
    | delegate =>
      obtain ⟨x0, x1, x2, x3, x4, x5, rest, hst⟩ := stack6 hp
      simp only [dynGas, hst]
      cases h : callGasDyn m w gas size (toAddr x1) 0 x0 with
      | panic => exact absurd h callGasDyn_no_panic
      | fail _ => exact trivial
      | ok cost child last w1 =>
        obtain ⟨a, b, c, hwarm, d⟩ := callGasDyn_facts hg hm h32 (Nat.zero_le _) h
        refine ⟨a, b, fun _ => c, by simp, by simp, ?_, fun _ _ g' a' rest' e => by rw [hst] at e; injection e with e1 e2; injection e2 with e2 _; subst e2; exact hwarm⟩
        intro hpay k hk
        injection hk with hk
        subst hk
        exact ⟨by simp, fun _ => (d hpay).1⟩
    | static =>
      obtain ⟨x0, x1, x2, x3, x4, x5, rest, hst⟩ := stack6 hp
      simp only [dynGas, hst]
      cases h : callGasDyn m w gas size (toAddr x1) 0 x0 with
      | panic => exact absurd h callGasDyn_no_panic
      | fail _ => exact trivial
      | ok cost child last w1 =>
        obtain ⟨a, b, c, hwarm, d⟩ := callGasDyn_facts hg hm h32 (Nat.zero_le _) h
        refine ⟨a, b, fun _ => c, by simp, by simp, ?_, fun _ _ g' a' rest' e => by rw [hst] at e; injection e with e1 e2; injection e2 with e2 _; subst e2; exact hwarm⟩
        intro hpay k hk
        injection hk with hk
        subst hk
        exact ⟨by simp, fun _ => (d hpay).1⟩
  | selfdestruct =>
    obtain ⟨x0, rest, hst⟩ := stack1 hp
    simp only [dynGas, hst, selfdestructGas]
    refine fixed_facts hm (fix rfl hsz) (by simp) (by simp) (by simp) ?_ ?_
    · split
      · exact Warms.refl _
      · exact Warms.addr _ _
    · split <;> rfl
  | stop => exact fixed_facts (op := .stop) hm (fix rfl hsz) (by simp) (by simp) (by simp) (Warms.refl _) rfl
  | un o => exact fixed_facts (op := .un o) hm (fix rfl hsz) (by simp) (by simp) (by simp) (Warms.refl _) rfl
  | bin o => exact fixed_facts (op := .bin o) hm (fix rfl hsz) (by simp) (by simp) (by simp) (Warms.refl _) rfl
  | tern o => exact fixed_facts (op := .tern o) hm (fix rfl hsz) (by simp) (by simp) (by simp) (Warms.refl _) rfl
  | null o => exact fixed_facts (op := .null o) hm (fix rfl hsz) (by simp) (by simp) (by simp) (Warms.refl _) rfl
  | calldataload => exact fixed_facts (op := .calldataload) hm (fix rfl hsz) (by simp) (by simp) (by simp) (Warms.refl _) rfl
  | blockhash => exact fixed_facts (op := .blockhash) hm (fix rfl hsz) (by simp) (by simp) (by simp) (Warms.refl _) rfl
  | pop => exact fixed_facts (op := .pop) hm (fix rfl hsz) (by simp) (by simp) (by simp) (Warms.refl _) rfl
  | jump => exact fixed_facts (op := .jump) hm (fix rfl hsz) (by simp) (by simp) (by simp) (Warms.refl _) rfl
  | jumpi => exact fixed_facts (op := .jumpi) hm (fix rfl hsz) (by simp) (by simp) (by simp) (Warms.refl _) rfl
  | jumpdest => exact fixed_facts (op := .jumpdest) hm (fix rfl hsz) (by simp) (by simp) (by simp) (Warms.refl _) rfl
  | push k => exact fixed_facts (op := .push k) hm (fix rfl hsz) (by simp) (by simp) (by simp) (Warms.refl _) rfl
  | dup k => exact fixed_facts (op := .dup k) hm (fix rfl hsz) (by simp) (by simp) (by simp) (Warms.refl _) rfl
  | swap k => exact fixed_facts (op := .swap k) hm (fix rfl hsz) (by simp) (by simp) (by simp) (Warms.refl _) rfl
  | invalid => exact fixed_facts (op := .invalid) hm (fix rfl hsz) (by simp) (by simp) (by simp) (Warms.refl _) rfl

end VM
