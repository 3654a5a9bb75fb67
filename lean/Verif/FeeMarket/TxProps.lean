import Verif.FeeMarket.Tx
/-!
# Properties of Ethereum transactions: fees, gas and nonces (C55, C56, C57)
-/
namespace FeeMarket

/-! ## Specification -/

/-- The price per gas by EIP-1559: the fee cap, or the base fee plus the tip if that is less.  Other transactions pay their
price. -/
def fair (base : Nat) : Price → Nat
  | .legacy p => p
  | .dynamic tip cap => if base + tip ≤ cap then base + tip else cap

theorem effective_eq (base : Nat) (p : Price) : p.effective base = fair base p := by
  cases p with
  | legacy p => rfl
  | dynamic t c =>
    show min (t + base) c = if base + t ≤ c then base + t else c
    split <;> omega

theorem message_eq {base : Nat} {p : Price} : p.message base = fair base p := by
  cases p with
  | legacy p => unfold Price.message fair; show min (p + base) p = p; omega
  | dynamic t c => exact effective_eq base (.dynamic t c)

/-- Everything the ante handler has checked and done. -/
theorem ante_spec {env : Env} {s t : Accounts} {tx : Tx} (h : ante env s tx = some t) :
    ∃ base, env.base = some base ∧ tx.gas ≠ 0 ∧ tx.gas < 2 ^ 63 ∧ tx.gas ≤ env.limit ∧ base ≤ tx.price.cap ∧
      tx.price.tip ≤ tx.price.cap ∧ s.code tx.sender = false ∧ tx.price.cap * tx.gas + tx.value ≤ s.bal tx.sender ∧
      (env.minPrice = 0 ∨ env.minPrice * tx.gas ≤ fair base tx.price * tx.gas * one) ∧
      tx.nonce = s.nonce tx.sender ∧
      t = { s with
        bal := upd s.bal tx.sender (s.bal tx.sender - fair base tx.price * tx.gas)
        pot := s.pot + fair base tx.price * tx.gas
        nonce := upd s.nonce tx.sender (tx.nonce + 1) } := by
  unfold ante at h
  cases hb : env.base with
  | none => rw [hb] at h; cases h
  | some base =>
    rw [hb] at h
    dsimp only at h
    split at h
    · rename_i hc
      simp only [Bool.and_eq_true, decide_eq_true_eq, basic, globalFee, funded, canTransfer, Bool.or_eq_true,
        Bool.not_eq_true', effective_eq] at hc
      obtain ⟨⟨⟨⟨⟨⟨⟨⟨⟨h1, h2⟩, h3⟩, _⟩, _⟩, h4⟩, _⟩, h5, h6⟩, h7, _⟩, h8⟩ := hc
      rw [effective_eq] at h
      unfold takeFee at h
      split at h
      · simp only [Option.bind_some] at h
        unfold bump at h
        split at h
        · rename_i hn
          cases h
          change tx.nonce = s.nonce tx.sender at hn
          refine ⟨base, rfl, h1, h2, h8, h7, h3, h5, h6, h4, hn, ?_⟩
          rw [hn]
        · cases h
      · cases h
    · cases h

theorem fair_le_cap {base : Nat} {p : Price} : fair base p ≤ p.cap := by
  cases p with
  | legacy p => exact Nat.le_refl _
  | dynamic t c =>
    show (if base + t ≤ c then base + t else c) ≤ c
    split <;> omega

theorem base_le_fair {base : Nat} {p : Price} (h : base ≤ p.cap) : base ≤ fair base p := by
  cases p with
  | legacy p => exact h
  | dynamic t c =>
    have h : base ≤ c := h
    show base ≤ if base + t ≤ c then base + t else c
    split <;> omega

theorem upd_same {α : Type} (f : Nat → α) (k : Nat) (x : α) : upd f k x k = x := by unfold upd; rw [if_pos rfl]

theorem upd_other {α : Type} (f : Nat → α) {k i : Nat} (x : α) (h : i ≠ k) : upd f k x i = f i := by
  unfold upd; rw [if_neg h]

/-! ## C57: gas used -/

/-- The gas charged lies between the gas limit times the multiplier and the gas limit; refunds give back at most a fifth of
what was really used. -/
theorem gas_used_bounds {env : Env} {tx : Tx} {o : Outcome} {used : Nat} (hm : env.mult ≤ 10 ^ 18)
    (h : applyMsg env tx o = some used) :
    tx.intrinsic ≤ tx.gas ∧ o.left ≤ tx.gas ∧ used ≤ tx.gas ∧ tx.gas * env.mult / 10 ^ 18 ≤ used ∧
      4 * (tx.gas - o.left) ≤ 5 * used ∧ used ≤ max (tx.gas * env.mult / 10 ^ 18) (tx.gas - o.left) := by
  unfold applyMsg at h
  split at h
  · cases h
  · split at h
    · cases h
    · split at h
      · cases h
      · split at h
        · cases h
        · rename_i h1 _ h2 _
          have hu : charged env.mult tx.gas (tx.gas - o.left - toRefund o.counter (tx.gas - o.left)) = used :=
            Option.some.inj h
          have hr : toRefund o.counter (tx.gas - o.left) ≤ (tx.gas - o.left) / 5 := by
            unfold toRefund; split <;> omega
          generalize toRefund o.counter (tx.gas - o.left) = r at hu hr
          generalize hg : tx.gas - o.left - r = g at hu
          have hone : one = 1000000000000000000 := rfl
          have h3 : g ≤ used := by
            rw [← hu]
            unfold charged
            rw [Nat.le_div_iff_mul_le (by decide)]
            exact Nat.le_max_right _ _
          have h4 : tx.gas * env.mult / 10 ^ 18 ≤ used := by
            rw [← hu]
            exact Nat.div_le_div_right (Nat.le_max_left _ _)
          have h5 : used ≤ max (tx.gas * env.mult / 10 ^ 18) g := by
            rw [← hu]
            unfold charged
            by_cases hc : tx.gas * env.mult ≤ g * one
            · rw [Nat.max_eq_right hc, Nat.mul_div_cancel _ (by decide)]
              exact Nat.le_max_right _ _
            · rw [Nat.max_eq_left (by omega)]
              exact Nat.le_max_left _ _
          have h6 : tx.gas * env.mult / 10 ^ 18 ≤ tx.gas := by
            apply Nat.div_le_of_le_mul
            rw [Nat.mul_comm (10 ^ 18)]
            exact Nat.mul_le_mul_left _ hm
          refine ⟨by omega, by omega, by omega, h4, by omega, by omega⟩

/-- Half of the gas limit counts at least. -/
def env1 : Env := ⟨some 7, 5 * one, one / 2, 1000, true, true⟩

/-- A call with 100 gas at a price of base fee plus 2. -/
def tx1 : Tx := ⟨1, 3, 100, .dynamic 2 10, 50, false, 21⟩

/-- An execution that leaves 30 gas and moves 50 from account 1 to account 2. -/
def run1 : Outcome := ⟨30, 100, false, false, false, fun s =>
  { s with bal := upd (upd s.bal 1 (s.bal 1 - 50)) 2 (s.bal 2 + 50) }⟩

/-- Account 1 has 2000 and nonce 3. -/
def acc1 : Accounts := ⟨fun a => if a = 1 then 2000 else 0, fun a => if a = 1 then 3 else 0, fun _ => false, 0⟩

example : applyMsg env1 tx1 run1 = some 56 ∧ env1.mult ≤ 10 ^ 18 := by decide +kernel

/-! ## C55: fees -/

/-- A refused transaction changes nothing. -/
theorem refused_changes_nothing {env : Env} {s t : Accounts} {tx : Tx} {o : Outcome}
    (h : deliver env s tx o = (t, .refused)) : t = s := by
  unfold deliver at h
  split at h
  · cases h; rfl
  · split at h
    · cases h; rfl
    · unfold apply at h
      split at h
      · cases h
      · split at h
        · cases h
        · cases h

theorem deliver_cases {env : Env} {s t : Accounts} {tx : Tx} {o : Outcome} {r : Result}
    (h : deliver env s tx o = (t, r)) (hr : r ≠ .refused) :
    ∃ base s1, env.base = some base ∧ ante env s tx = some s1 ∧ apply env base s1 tx o = (t, r) := by
  unfold deliver at h
  split at h
  · cases h; exact absurd rfl hr
  · rename_i s1 ha
    obtain ⟨base, hb, _⟩ := ante_spec ha
    rw [hb] at h
    exact ⟨base, s1, hb, ha, h⟩

/-- Every transaction that is not refused offered at least the base fee and pays per gas exactly the price of EIP-1559, which
lies between the base fee and its fee cap and is not below the minimum gas price. -/
theorem price_paid {env : Env} {s t : Accounts} {tx : Tx} {o : Outcome} {r : Result}
    (h : deliver env s tx o = (t, r)) (hr : r ≠ .refused) :
    ∃ base, env.base = some base ∧ base ≤ fair base tx.price ∧ fair base tx.price ≤ tx.price.cap ∧
      env.minPrice ≤ fair base tx.price * 10 ^ 18 := by
  obtain ⟨base, s1, hb, ha, _⟩ := deliver_cases h hr
  obtain ⟨base', hb', h1, _, _, h2, _, _, _, h3, _⟩ := ante_spec ha
  rw [hb] at hb'
  cases hb'
  refine ⟨base, hb, base_le_fair h2, fair_le_cap, ?_⟩
  rcases h3 with h3 | h3
  · omega
  · rw [Nat.mul_right_comm] at h3
    exact Nat.le_of_mul_le_mul_right h3 (by omega)

/-- The property of an execution that it does not take coins out of the fee collector (nobody holds its key, and its coins
are distributed only between transactions). -/
def KeepsPot (o : Outcome) : Prop := ∀ s, (o.effect s).pot = s.pot

theorem apply_done {env : Env} {base : Nat} {s t : Accounts} {tx : Tx} {o : Outcome} {used : Nat} {ok : Bool}
    (h : apply env base s tx o = (t, .done used ok)) :
    applyMsg env tx o = some used ∧ ok = !(o.failed || o.hooks) ∧
      giveBack (if o.failed || o.hooks then s else execute s tx o) tx.sender ((tx.gas - used) * fair base tx.price) = some t := by
  unfold apply at h
  cases hm : applyMsg env tx o with
  | none => rw [hm] at h; cases h
  | some u =>
    rw [hm, message_eq] at h
    dsimp only at h
    split at h
    · cases h
    · rename_i hg
      cases h
      exact ⟨rfl, rfl, hg⟩

theorem execute_pot {s : Accounts} {tx : Tx} {o : Outcome} (ho : KeepsPot o) : (execute s tx o).pot = s.pot := by
  unfold execute
  split
  · exact ho _
  · exact ho _

/-- A transaction that runs pays the fee collector exactly gas used times price. -/
theorem collector_gets_gas_used {env : Env} {s t : Accounts} {tx : Tx} {o : Outcome} {used : Nat} {ok : Bool}
    (hm : env.mult ≤ 10 ^ 18) (ho : KeepsPot o) (h : deliver env s tx o = (t, .done used ok)) :
    ∃ base, env.base = some base ∧ used ≤ tx.gas ∧ t.pot = s.pot + used * fair base tx.price := by
  obtain ⟨base, s1, hb, ha, h1⟩ := deliver_cases h (by intro h; cases h)
  obtain ⟨h2, _, h3⟩ := apply_done h1
  obtain ⟨base', hb', _, _, _, _, _, _, _, _, _, hs1⟩ := ante_spec ha
  rw [hb] at hb'
  cases hb'
  obtain ⟨_, _, hu, _⟩ := gas_used_bounds hm h2
  refine ⟨base, hb, hu, ?_⟩
  have hp : (if o.failed || o.hooks then s1 else execute s1 tx o).pot = s.pot + fair base tx.price * tx.gas := by
    split
    · rw [hs1]
    · rw [execute_pot ho, hs1]
  generalize (if o.failed || o.hooks then s1 else execute s1 tx o) = s2 at h3 hp
  unfold giveBack at h3
  split at h3
  · cases h3
    show s2.pot - _ = _
    rw [hp, Nat.mul_comm (tx.gas - used), Nat.mul_sub, Nat.mul_comm used]
    have : fair base tx.price * used ≤ fair base tx.price * tx.gas := Nat.mul_le_mul_left _ hu
    omega
  · cases h3

example : (deliver env1 acc1 tx1 run1).2 = .done 56 true ∧ (deliver env1 acc1 tx1 run1).1.pot = 56 * 9 := by decide +kernel

/-- The refund never fails: whatever the transaction does, it ends as run or with an error of the keeper itself. -/
theorem refund_never_fails {env : Env} {s t : Accounts} {tx : Tx} {o : Outcome} (hm : env.mult ≤ 10 ^ 18) (ho : KeepsPot o)
    (h : deliver env s tx o = (t, .error)) : tx.gas < tx.intrinsic ∨ o.broken = true ∨ tx.gas < o.left := by
  obtain ⟨base, s1, hb, ha, h1⟩ := deliver_cases h (by intro h; cases h)
  obtain ⟨base', hb', _, h63, _, _, _, _, _, _, _, hs1⟩ := ante_spec ha
  rw [hb] at hb'
  cases hb'
  unfold apply at h1
  cases hr : applyMsg env tx o with
  | none =>
    unfold applyMsg at hr
    split at hr
    · exact .inl (by assumption)
    · split at hr
      · exact .inr (.inl (by assumption))
      · split at hr
        · exact .inr (.inr (by assumption))
        · split at hr
          · rename_i hbig
            exfalso
            have : tx.gas * env.mult / one ≤ tx.gas := by
              apply Nat.div_le_of_le_mul
              rw [Nat.mul_comm one]
              exact Nat.mul_le_mul_left _ hm
            omega
          · cases hr
  | some used =>
    exfalso
    rw [hr, message_eq] at h1
    obtain ⟨_, _, hu, _⟩ := gas_used_bounds hm hr
    dsimp only at h1
    have hp : (if o.failed || o.hooks then s1 else execute s1 tx o).pot = s.pot + fair base tx.price * tx.gas := by
      split
      · rw [hs1]
      · rw [execute_pot ho, hs1]
    have hle : (tx.gas - used) * fair base tx.price ≤ (if o.failed || o.hooks then s1 else execute s1 tx o).pot := by
      rw [hp, Nat.mul_comm]
      have : fair base tx.price * (tx.gas - used) ≤ fair base tx.price * tx.gas := Nat.mul_le_mul_left _ (Nat.sub_le _ _)
      omega
    unfold giveBack at h1
    rw [if_pos hle] at h1
    cases h1

example : (deliver env1 acc1 { tx1 with intrinsic := 101 } run1).2 = .error := by decide +kernel

/-- A transaction whose execution fails costs its sender exactly gas used times price, uses up its nonce and changes nothing
else. -/
theorem failed_costs_only_gas {env : Env} {s t : Accounts} {tx : Tx} {o : Outcome} {used : Nat}
    (hm : env.mult ≤ 10 ^ 18) (h : deliver env s tx o = (t, .done used false)) :
    ∃ base, env.base = some base ∧ used * fair base tx.price ≤ s.bal tx.sender ∧
      t.bal tx.sender = s.bal tx.sender - used * fair base tx.price ∧ t.nonce tx.sender = s.nonce tx.sender + 1 ∧
      (∀ a, a ≠ tx.sender → t.bal a = s.bal a ∧ t.nonce a = s.nonce a) ∧ t.code = s.code ∧
      t.pot = s.pot + used * fair base tx.price := by
  obtain ⟨base, s1, hb, ha, h1⟩ := deliver_cases h (by intro h; cases h)
  obtain ⟨h2, hk, h3⟩ := apply_done h1
  obtain ⟨base', hb', _, _, _, _, _, _, hf, _, hn, hs1⟩ := ante_spec ha
  rw [hb] at hb'
  cases hb'
  obtain ⟨_, _, hu, _⟩ := gas_used_bounds hm h2
  have he : (o.failed || o.hooks) = true := by
    cases hx : (o.failed || o.hooks) with
    | true => rfl
    | false => rw [hx] at hk; cases hk
  rw [he, if_pos rfl] at h3
  have hl1 : fair base tx.price * used ≤ fair base tx.price * tx.gas := Nat.mul_le_mul_left _ hu
  have hl2 : fair base tx.price * tx.gas ≤ tx.price.cap * tx.gas := Nat.mul_le_mul_right _ fair_le_cap
  have hl3 : (tx.gas - used) * fair base tx.price = fair base tx.price * tx.gas - fair base tx.price * used := by
    rw [Nat.mul_comm, Nat.mul_sub]
  have hl4 : used * fair base tx.price = fair base tx.price * used := Nat.mul_comm _ _
  unfold giveBack at h3
  split at h3
  · cases h3
    rw [hs1]
    refine ⟨base, hb, by omega, ?_, ?_, ?_, rfl, ?_⟩
    · show upd (upd _ _ _) _ (upd _ _ _ _ + _) _ = _
      rw [upd_same, upd_same]
      omega
    · show upd _ _ _ _ = _
      rw [upd_same]
      omega
    · intro a hne
      constructor
      · show upd (upd _ _ _) _ _ a = _
        rw [upd_other _ _ hne, upd_other _ _ hne]
      · show upd _ _ _ a = _
        rw [upd_other _ _ hne]
    · show s.pot + _ - _ = _
      omega
  · cases h3

example : (deliver env1 acc1 tx1 { run1 with failed := true }).2 = .done 56 false ∧
    (deliver env1 acc1 tx1 { run1 with failed := true }).1.bal 1 = 2000 - 56 * 9 := by decide +kernel

/-- A transaction that the keeper cannot run costs the whole gas limit, and nothing else changes. -/
theorem error_costs_gas_limit {env : Env} {s t : Accounts} {tx : Tx} {o : Outcome} (h : deliver env s tx o = (t, .error)) :
    ∃ base, env.base = some base ∧ t.bal tx.sender + tx.gas * fair base tx.price = s.bal tx.sender ∧
      t.pot = s.pot + tx.gas * fair base tx.price ∧ t.nonce tx.sender = s.nonce tx.sender + 1 ∧
      ∀ a, a ≠ tx.sender → t.bal a = s.bal a ∧ t.nonce a = s.nonce a := by
  obtain ⟨base, s1, hb, ha, h1⟩ := deliver_cases h (by intro h; cases h)
  obtain ⟨base', hb', _, _, _, _, _, _, hf, _, hn, hs1⟩ := ante_spec ha
  rw [hb] at hb'
  cases hb'
  have ht : t = s1 := by
    unfold apply at h1
    split at h1
    · cases h1; rfl
    · split at h1
      · cases h1; rfl
      · cases h1
  have hl2 : fair base tx.price * tx.gas ≤ tx.price.cap * tx.gas := Nat.mul_le_mul_right _ fair_le_cap
  have hc : tx.gas * fair base tx.price = fair base tx.price * tx.gas := Nat.mul_comm _ _
  rw [ht, hs1]
  refine ⟨base, hb, ?_, ?_, ?_, ?_⟩
  · show upd _ _ _ _ + _ = _
    rw [upd_same]
    omega
  · show s.pot + _ = _
    rw [hc]
  · show upd _ _ _ _ = _
    rw [upd_same, hn]
  · intro a hne
    exact ⟨upd_other _ _ hne, upd_other _ _ hne⟩

/-- When the execution starts, the fee has been taken and the sender can still pay the value of the transaction. -/
theorem value_still_covered {env : Env} {s s1 : Accounts} {tx : Tx} (h : ante env s tx = some s1) :
    tx.value ≤ s1.bal tx.sender := by
  obtain ⟨base, _, _, _, _, _, _, _, hf, _, _, hs1⟩ := ante_spec h
  have hl2 : fair base tx.price * tx.gas ≤ tx.price.cap * tx.gas := Nat.mul_le_mul_right _ fair_le_cap
  rw [hs1]
  show _ ≤ upd _ _ _ _
  rw [upd_same]
  omega

example : (ante env1 acc1 tx1).isSome = true := by decide +kernel

/-- After the base fee has dropped to 0 (see `zero_target_drops_fee`), the module reports no base fee and every Ethereum
transaction is refused. -/
theorem zero_base_fee_refuses_all {p : Params} (hp : p.baseFee = some 0) {env : Env} (he : env.base = evmBaseFee p)
    (s : Accounts) (tx : Tx) (o : Outcome) : deliver env s tx o = (s, .refused) := by
  have : env.base = none := by
    rw [he]
    unfold evmBaseFee getBaseFee
    split
    · rfl
    · rw [hp]; rfl
  unfold deliver ante
  rw [this]

/-! ## C56: nonces -/

/-- A step of the chain: a transaction, or anything else that changes the accounts (Cosmos transactions, begin and end of
blocks). -/
inductive Op where
  | tx (env : Env) (tx : Tx) (o : Outcome)
  | other (f : Accounts → Accounts)

/-- One step, with the list of the (sender, nonce) pairs of all transactions that were not refused. -/
def step (x : Accounts × List (Nat × Nat)) : Op → Accounts × List (Nat × Nat)
  | .tx env tx o =>
    ((deliver env x.1 tx o).1, if (deliver env x.1 tx o).2 = .refused then x.2 else (tx.sender, tx.nonce) :: x.2)
  | .other f => (f x.1, x.2)

/-- A chain, from the newest step to the oldest. -/
def run (s : Accounts) : List Op → Accounts × List (Nat × Nat)
  | [] => (s, [])
  | op :: ops => step (run s ops) op

/-- Executions and other steps do not lower the nonce of an account somebody holds a key of. -/
def KeepsNonces (keyed : Nat → Prop) : Op → Prop
  | .tx _ tx o => keyed tx.sender ∧ ∀ s a, keyed a → s.nonce a ≤ (o.effect s).nonce a
  | .other f => ∀ s a, keyed a → s.nonce a ≤ (f s).nonce a

theorem giveBack_nonce {s t : Accounts} {w a : Nat} (h : giveBack s w a = some t) : t.nonce = s.nonce := by
  unfold giveBack at h
  split at h
  · cases h; rfl
  · cases h

theorem deliver_nonce {keyed : Nat → Prop} {env : Env} {s t : Accounts} {tx : Tx} {o : Outcome} {r : Result}
    (hk : KeepsNonces keyed (.tx env tx o)) (h : deliver env s tx o = (t, r)) (hr : r ≠ .refused) :
    tx.nonce = s.nonce tx.sender ∧ tx.nonce < t.nonce tx.sender ∧ ∀ a, keyed a → s.nonce a ≤ t.nonce a := by
  obtain ⟨base, s1, hb, ha, h1⟩ := deliver_cases h hr
  obtain ⟨_, _, _, _, _, _, _, _, _, _, hn, hs1⟩ := ante_spec ha
  have hs : s1.nonce = upd s.nonce tx.sender (tx.nonce + 1) := by rw [hs1]
  have hs' : ∀ a, s.nonce a ≤ s1.nonce a := by
    intro a
    rw [hs]
    by_cases e : a = tx.sender
    · rw [e, upd_same, hn]; omega
    · rw [upd_other _ _ e]; exact Nat.le_refl _
  have he : tx.nonce < (execute s1 tx o).nonce tx.sender ∧ ∀ a, keyed a → s.nonce a ≤ (execute s1 tx o).nonce a := by
    unfold execute
    split
    · refine ⟨?_, ?_⟩
      · show _ < upd _ _ _ _
        rw [upd_same]; omega
      · intro a hka
        show _ ≤ upd _ _ _ _
        by_cases e : a = tx.sender
        · rw [e, upd_same, hn]; omega
        · rw [upd_other _ _ e]
          refine Nat.le_trans ?_ (hk.2 _ a hka)
          show _ ≤ upd _ _ _ _
          rw [upd_other _ _ e]
          exact hs' a
    · refine ⟨?_, fun a hka => Nat.le_trans (hs' a) (hk.2 _ a hka)⟩
      refine Nat.lt_of_lt_of_le ?_ (hk.2 _ _ hk.1)
      rw [hs, upd_same]; omega
  have h1' : tx.nonce < s1.nonce tx.sender := by rw [hs, upd_same]; omega
  refine ⟨hn, ?_⟩
  unfold apply at h1
  split at h1
  · cases h1; exact ⟨h1', fun a _ => hs' a⟩
  · split at h1
    · cases h1; exact ⟨h1', fun a _ => hs' a⟩
    · rename_i hg
      cases h1
      rw [giveBack_nonce hg]
      split
      · exact ⟨h1', fun a _ => hs' a⟩
      · exact he

/-- No transaction takes effect twice: over the whole history, no two transactions that were not refused have the same
sender and nonce; whatever happens in between. -/
theorem no_replay {keyed : Nat → Prop} {s : Accounts} {ops : List Op} (hk : ∀ op ∈ ops, KeepsNonces keyed op) :
    (run s ops).2.Nodup := by
  have key : (run s ops).2.Nodup ∧ ∀ a n, (a, n) ∈ (run s ops).2 → keyed a ∧ n < (run s ops).1.nonce a := by
    induction ops with
    | nil => exact ⟨List.nodup_nil, fun a n h => by cases h⟩
    | cons op ops ih =>
      obtain ⟨h1, h2⟩ := ih (fun op h => hk op (List.mem_cons_of_mem _ h))
      have ho := hk op List.mem_cons_self
      cases op with
      | other f => exact ⟨h1, fun a n h => ⟨(h2 a n h).1, Nat.lt_of_lt_of_le (h2 a n h).2 (ho _ a (h2 a n h).1)⟩⟩
      | tx env tx o =>
        cases hd : deliver env (run s ops).1 tx o with
        | mk t r =>
          have e1 : (run s (.tx env tx o :: ops)).1 = t := congrArg Prod.fst hd
          have e2 : (run s (.tx env tx o :: ops)).2 =
              if r = .refused then (run s ops).2 else (tx.sender, tx.nonce) :: (run s ops).2 := by
            show (if (deliver env (run s ops).1 tx o).2 = .refused then _ else _) = _
            rw [hd]
          rw [e1, e2]
          by_cases hr : r = .refused
          · rw [if_pos hr]
            rw [hr] at hd
            rw [refused_changes_nothing hd]
            exact ⟨h1, h2⟩
          · rw [if_neg hr]
            obtain ⟨g1, g2, g3⟩ := deliver_nonce ho hd hr
            refine ⟨List.nodup_cons.2 ⟨?_, h1⟩, ?_⟩
            · intro hm
              have := (h2 _ _ hm).2
              omega
            · intro a n hm
              rcases List.mem_cons.1 hm with hm | hm
              · cases hm; exact ⟨ho.1, g2⟩
              · exact ⟨(h2 a n hm).1, Nat.lt_of_lt_of_le (h2 a n hm).2 (g3 a (h2 a n hm).1)⟩
  exact key.1

/-- A transaction takes effect only if its nonce is the next one of its sender. -/
theorem nonces_in_order {env : Env} {s t : Accounts} {tx : Tx} {o : Outcome} {r : Result}
    (h : deliver env s tx o = (t, r)) (hr : r ≠ .refused) : tx.nonce = s.nonce tx.sender := by
  obtain ⟨base, s1, hb, ha, h1⟩ := deliver_cases h hr
  obtain ⟨_, _, _, _, _, _, _, _, _, _, hn, _⟩ := ante_spec ha
  exact hn

example : (∀ op ∈ [Op.tx env1 tx1 run1, .tx env1 { tx1 with nonce := 4 } run1, .tx env1 tx1 run1],
      KeepsNonces (fun a => a = 1) op) ∧
    (run acc1 [Op.tx env1 tx1 run1, .tx env1 { tx1 with nonce := 4, value := 0 } run1, .tx env1 tx1 run1]).2 =
      [(1, 4), (1, 3)] := by
  constructor
  · intro op h
    simp only [List.mem_cons, List.not_mem_nil, or_false] at h
    rcases h with rfl | rfl | rfl <;> exact ⟨rfl, fun s a _ => Nat.le_refl _⟩
  · decide +kernel

end FeeMarket
