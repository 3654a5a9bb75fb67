import Verif.VM.DynLemmas
/-! # One round of the loop: lemmas -/
namespace VM

/-- What holds of a machine between rounds. -/
structure MachOk (m : Mach) : Prop where
  mem : MemOk m.mem.length m.last
  stack : m.stack.length ≤ 1024

/-- What one round may do. -/
def StepFacts (ctx : Ctx) (w : World) (gas : Nat) (m : Mach) (s : StepRes) : Prop :=
  s.gas ≤ gas ∧
  match s.exec with
  | .cont m' => s.gas < gas ∧ MachOk m' ∧ Warms w s.world ∧ s.world.refund = w.refund
  | .contW m' w' => s.gas < gas ∧ MachOk m' ∧ ctx.readOnly = false ∧
      ((Warms w s.world ∧ s.world.refund = w.refund ∧ ∃ l, w' = s.world.addLog l) ∨
       (∃ k v g cost child last, sstoreDyn m w ctx.self g k v = .ok cost child last s.world ∧ w' = s.world.setState ctx.self k v))
  | .stop _ => Warms w s.world ∧ s.world.refund = w.refund
  | .stopW w' => ctx.readOnly = false ∧ Warms w s.world ∧ s.world.refund = w.refund ∧ ∃ b, w' = s.world.selfdestruct ctx.self b
  | .revert _ => True
  | .fail => True
  | .panic => ∃ k v g, sstoreDyn m w ctx.self g k v = .panic
  | .call r m' => s.gas + s.child + (if r.value = 0#256 then 0 else 2300) < gas ∧ MemOk m'.mem.length m'.last ∧ m'.stack.length + 1 ≤ 1024 ∧
      Within r.retOff r.retSize m'.mem.length ∧ (r.kind = .call → ctx.readOnly = true → r.value = 0#256) ∧
      (r.kind = .delegate ∨ r.kind = .static → r.value = 0#256) ∧ Warms w s.world ∧ s.world.refund = w.refund ∧ s.world.warmA r.addr = true
  | .create _ m' => s.gas < gas ∧ MemOk m'.mem.length m'.last ∧ m'.stack.length + 1 ≤ 1024 ∧ ctx.readOnly = false ∧ Warms w s.world ∧ s.world.refund = w.refund

theorem pushes_le (op : Op) : pushes op ≤ pops op + 1 := by
  cases op with
  | call k => cases k <;> decide
  | un o => exact Nat.le_succ _
  | bin o => exact (by decide : 1 ≤ 2 + 1)
  | tern o => exact (by decide : 1 ≤ 3 + 1)
  | null o => exact (by decide : 1 ≤ 0 + 1)
  | copy o => exact Nat.zero_le _
  | push n => exact (by decide : 1 ≤ 0 + 1)
  | dup n => exact Nat.le_refl _
  | swap n => exact Nat.le_succ _
  | log n => exact Nat.zero_le _
  | _ => decide

theorem pops_le {op : Op} {n k more : Nat} (h1 : ¬ maxStack op < n) (h2 : pops op ≤ n) (h3 : k + pops op + more = n + pushes op) : k + more ≤ 1024 := by
  have := pushes_le op
  unfold maxStack at h1
  omega

theorem invalid_code {push0 : Bool} {code : List UInt8} {pc : Nat} (h : decode push0 (getOp code pc) = .invalid) : ∃ b, code[pc]? = some b := by
  cases hc : code[pc]? with
  | some b => exact ⟨b, rfl⟩
  | none =>
    unfold getOp at h
    rw [hc] at h
    cases h

theorem stepSized_facts {env : Env} {ctx : Ctx} {w : World} {gas0 gas n size : Nat} {m : Mach} {op : Op} (hg : gas0 < 2 ^ 64) (hgas : gas + constGas op = gas0) (hm : MachOk m)
    (hp : pops op ≤ m.stack.length) (hmax : ¬ maxStack op < m.stack.length) (hsz : memSize op m.stack = some (some n))
    (hs : safeMul (toWordSize n) 32 = some size) (hop : op = .invalid → ∃ b, ctx.code[m.pc]? = some b) :
    StepFacts ctx w gas0 m (stepSized env ctx w gas size m op) := by
  have hd := dyn_facts (ctx := ctx) (w := w) (gas := gas) (Nat.lt_of_le_of_lt (by omega) hg) hm.mem hp hsz hs
  unfold stepSized
  cases he : dynGas ctx m w gas size op with
  | panic =>
    rw [he] at hd
    obtain ⟨k, v, rest, _, _, h⟩ := hd
    exact ⟨by dsimp only; omega, k, v, gas, h⟩
  | fail w1 => exact ⟨by dsimp only; omega, trivial⟩
  | ok cost child last w1 =>
    rw [he] at hd
    obtain ⟨d1, d2, d3, d4, d5, d6, d7⟩ := hd
    dsimp only
    by_cases hpay : gas < cost
    · rw [if_pos hpay]
      exact ⟨by dsimp only; omega, trivial⟩
    · rw [if_neg hpay]
      have hle := (size_words hs).2
      have hlen : (resize m.mem size).length = max m.mem.length size := resize_length _ _
      have hx := exec_facts (env := env) (ctx := ctx) (w := w1) (gas := gas - cost) (n := n) (m := { m with mem := resize m.mem size, last := last }) (op := op)
        hp hsz (by show n ≤ (resize m.mem size).length; rw [hlen]; omega) (by show (resize m.mem size).length ≤ _; rw [hlen]; exact d1.bound) hop
      refine ⟨by dsimp only; omega, ?_⟩
      dsimp only
      cases hex : exec env ctx w1 (gas - cost) { m with mem := resize m.mem size, last := last } op with
      | cont m' =>
        rw [hex] at hx
        obtain ⟨⟨x1, x2, x3⟩, x4⟩ := hx
        dsimp only at x1 x2 x3 ⊢
        refine ⟨?_, ⟨by rw [x1, x2, hlen]; exact d1, pops_le hmax hp x3⟩, d2, d3 ?_⟩
        · rcases x4 with h | h | h
          · omega
          · have := d4 (.inl h); omega
          · have := d4 (.inr (.inl h)); omega
        · intro h
          subst h
          rcases x4 with h | h | h
          · exact absurd h (by decide)
          · cases h
          · cases h
      | contW m' w' =>
        rw [hex] at hx
        obtain ⟨⟨x1, x2, x3⟩, x4, x5⟩ := hx
        dsimp only at x1 x2 x3 ⊢
        have hc : 10 ≤ cost := by
          rcases x5 with ⟨h, _⟩ | ⟨n, l, h, _⟩
          · exact d4 (.inr (.inr (.inl h)))
          · exact d4 (.inr (.inr (.inr ⟨n, h⟩)))
        refine ⟨by omega, ⟨by rw [x1, x2, hlen]; exact d1, pops_le hmax hp x3⟩, x4, ?_⟩
        rcases x5 with ⟨h, k, v, rest, hst, hw⟩ | ⟨n, l, h, hw⟩
        · exact .inr ⟨k, v, gas, cost, child, last, d5 k v rest h hst, hw⟩
        · exact .inl ⟨d2, d3 (by rw [h]; simp), l, hw⟩
      | stop ret => rw [hex] at hx; exact ⟨d2, d3 hx⟩
      | stopW w' =>
        rw [hex] at hx
        exact ⟨hx.1, d2, d3 hx.2.1, hx.2.2⟩
      | revert ret => exact trivial
      | fail => exact trivial
      | panic => rw [hex] at hx; exact hx.elim
      | call r m' =>
        rw [hex] at hx
        obtain ⟨⟨x1, x2, x3⟩, x4, x5, x6, x7⟩ := hx
        dsimp only at x1 x2 x3 x5 x7 ⊢
        have hc : constGas op = 100 := by rw [x4]; cases r.kind <;> rfl
        have hcall := d6 (Nat.le_of_not_lt hpay) r.kind x4
        refine ⟨?_, by rw [x1, x2, hlen]; exact d1, pops_le hmax hp x3, by rw [x1]; exact x5, x6, ?_, d2, d3 (by rw [x4]; simp), ?_⟩
        · rcases x7 with ⟨hk, g, a, rest, hst, _⟩ | ⟨hk, hv, _⟩
          · have := (hcall.1 hk g a r.value rest hst).1
            split at this <;> rename_i hv
            · rw [if_pos hv]; omega
            · rw [if_neg hv]; omega
          · have := hcall.2 hk
            rw [if_pos hv]; omega
        · intro hk
          rcases x7 with ⟨hk2, _⟩ | ⟨_, hv, _⟩
          · rcases hk with h | h <;> rw [h] at hk2 <;> rcases hk2 with h2 | h2 <;> cases h2
          · exact hv
        · rcases x7 with ⟨_, g, a, rest, hst, ha⟩ | ⟨_, _, g, a, rest, hst, ha⟩
          · rw [ha]; exact d7 r.kind x4 g a _ hst
          · rw [ha]; exact d7 r.kind x4 g a _ hst
      | create r m' =>
        rw [hex] at hx
        obtain ⟨⟨x1, x2, x3⟩, x4, x5⟩ := hx
        dsimp only at x1 x2 x3 ⊢
        have hc : constGas op = 32000 := by rcases x5 with h | h <;> rw [h] <;> rfl
        have hne : op ≠ .sstore := by rcases x5 with h | h <;> rw [h] <;> simp
        exact ⟨by omega, by rw [x1, x2, hlen]; exact d1, pops_le hmax hp x3, x4, d2, d3 hne⟩

theorem memSize_some {op : Op} {st : List Word} (hp : pops op ≤ st.length) : memSize op st ≠ none := by
  intro h
  cases op with
  | call k =>
    cases k
    · obtain ⟨x0, x1, x2, x3, x4, x5, x6, rest, hst⟩ := stack7 hp
      subst hst
      cases h
    · obtain ⟨x0, x1, x2, x3, x4, x5, x6, rest, hst⟩ := stack7 hp
      subst hst
      cases h
    · obtain ⟨x0, x1, x2, x3, x4, x5, rest, hst⟩ := stack6 hp
      subst hst
      cases h
    · obtain ⟨x0, x1, x2, x3, x4, x5, rest, hst⟩ := stack6 hp
      subst hst
      cases h
  | keccak => obtain ⟨x0, x1, rest, hst⟩ := stack2 hp; subst hst; cases h
  | ret => obtain ⟨x0, x1, rest, hst⟩ := stack2 hp; subst hst; cases h
  | revert => obtain ⟨x0, x1, rest, hst⟩ := stack2 hp; subst hst; cases h
  | log n => obtain ⟨x0, x1, rest, hst⟩ := stack2 (show 2 ≤ st.length by simp only [pops] at hp; omega); subst hst; cases h
  | copy o => obtain ⟨x0, x1, x2, rest, hst⟩ := stack3 hp; subst hst; cases h
  | extcodecopy => obtain ⟨x0, x1, x2, x3, rest, hst⟩ := stack4 hp; subst hst; cases h
  | mload => obtain ⟨x0, rest, hst⟩ := stack1 hp; subst hst; cases h
  | mstore => obtain ⟨x0, x1, rest, hst⟩ := stack2 hp; subst hst; cases h
  | mstore8 => obtain ⟨x0, x1, rest, hst⟩ := stack2 hp; subst hst; cases h
  | create => obtain ⟨x0, x1, x2, rest, hst⟩ := stack3 hp; subst hst; cases h
  | create2 => obtain ⟨x0, x1, x2, x3, rest, hst⟩ := stack4 hp; subst hst; cases h
  | _ => cases h

/-- One round. -/
theorem step_facts (env : Env) (ctx : Ctx) (w : World) {gas : Nat} {m : Mach} (hg : gas < 2 ^ 64) (hm : MachOk m) : StepFacts ctx w gas m (step env ctx w gas m) := by
  unfold step
  have hop : decode env.push0 (getOp ctx.code m.pc) = .invalid → ∃ b, ctx.code[m.pc]? = some b := invalid_code
  generalize decode env.push0 (getOp ctx.code m.pc) = op at hop
  dsimp only
  split
  · exact ⟨Nat.le_refl _, trivial⟩
  · rename_i h1
    have hp : pops op ≤ m.stack.length := Nat.le_of_not_lt fun h => h1 (.inl h)
    have hmax : ¬ maxStack op < m.stack.length := fun h => h1 (.inr h)
    split
    · exact ⟨Nat.le_refl _, trivial⟩
    · rename_i h2
      split
      · rename_i h
        exact absurd h (memSize_some hp)
      · exact ⟨Nat.sub_le _ _, trivial⟩
      · rename_i n hsz
        split
        · exact ⟨Nat.sub_le _ _, trivial⟩
        · rename_i size hs
          exact stepSized_facts hg (by omega) hm hp hmax hsz hs hop

end VM
