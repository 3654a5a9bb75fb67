import Verif.VM.TxProps
/-!
# Plain transfers and the gas that is charged (C77)

A transaction that sends coins to an account without code succeeds, moves exactly the value, and costs the intrinsic gas or the minimum that the fee market demands.
And the gas charged for any transaction is what the virtual machine used less the refund, at least that minimum.
-/
namespace VM

/-! ### Specification -/

/-- The least gas that is charged for a limit: a share of the limit, rounded down. -/
def Chain.least (c : Chain) (limit : Nat) : Nat := limit * c.fee.mult / 10 ^ 18

/-- `s'` is `s` after a payment of `value` coins by the sender to `b`, and of `fee` coins to the collector. -/
structure Payment (c : Chain) (t : Tx) (b : Addr) (fee : Nat) (s s' : St) : Prop where
  balance : ∀ x, s'.world.balance x = s.world.balance x - (if x = t.sender then ((t.value + fee : Nat) : Int) else 0) + (if x = b then (t.value : Int) else 0) +
    (if x = c.collector then (fee : Int) else 0)
  kept : ∀ x, x ≠ t.sender → s.world.exist x = true → Kept x s.world s'.world
  nonce : s'.world.nonce t.sender = s.world.nonce t.sender + 1
  reg : s'.reg = s.reg

/-! ### Proof -/

theorem charged_eq (mult gas used : Nat) : FeeMarket.charged mult gas used = max (gas * mult / 10 ^ 18) used := by
  unfold FeeMarket.charged
  have h1 : FeeMarket.one = 10 ^ 18 := rfl
  have h0 : 0 < 10 ^ 18 := by decide
  rw [h1]
  generalize 10 ^ 18 = one at h0
  have h2 : used * one / one = used := Nat.mul_div_cancel _ h0
  rcases Nat.le_total (gas * mult) (used * one) with h | h
  · rw [Nat.max_eq_right h, h2, Nat.max_eq_right (by rw [← h2]; exact Nat.div_le_div_right h)]
  · rw [Nat.max_eq_left h, Nat.max_eq_left (by rw [← h2]; exact Nat.div_le_div_right h)]

theorem toRefund_eq (counter used : Nat) : FeeMarket.toRefund counter used = min counter (used / 5) := by
  unfold FeeMarket.toRefund
  split <;> omega

theorem Clean.create {w : World} (h : Clean w) {a : Addr} (ha : w.exist a = false) : Clean (w.createAccount a) := by
  have hn : w.acct a = none := by
    unfold World.exist at ha
    cases e : w.acct a with
    | none => rfl
    | some c => rw [e] at ha; cases ha
  constructor
  · intro b c hc
    unfold World.createAccount at hc
    rw [acct_modify] at hc
    split at hc
    · cases hc
      exact ⟨rfl, rfl⟩
    · exact h.settled b c hc
  · intro b k hb
    unfold World.createAccount at hb
    rw [acct_modify] at hb
    split at hb
    · cases hb
    · exact h.absent b k hb

theorem Clean.enter {w : World} (h : Clean w) (a b : Addr) (v : Int) : Clean (enter w a b v) := by
  unfold VM.enter
  split
  · exact h.transfer _ _ _
  · rename_i hb
    exact (h.create (Bool.eq_false_iff.mpr hb)).transfer _ _ _

/-- The call of an account without code. -/
theorem plain_execute {c : Chain} {t : Tx} {base : Nat} {b : Addr} {w : World} (hto : t.to = some b) (hp : c.vm.precompile b = none) (hh : c.vm.callHook t.sender b = true)
    (hcode : w.code b = []) (hv : (t.value : Int) ≤ w.balance t.sender) :
    ∃ w', execute c t base w = ⟨.ok, w', t.gas - intrinsic t, []⟩ ∧ (w' = w ∧ t.value = 0 ∨ w' = enter w t.sender b t.value) := by
  unfold execute
  rw [hto]
  dsimp only
  have e1 : (c.env t base).callHook t.sender b = true := hh
  have e2 : (c.env t base).precompile b = none := hp
  unfold evmCall
  rw [if_neg (by rw [e1]; exact Bool.noConfusion), if_neg (by decide), if_neg (fun h => by have := h.2; omega)]
  split
  · rename_i h
    exact ⟨w, rfl, Or.inl ⟨rfl, by have := h.2.2; omega⟩⟩
  · refine ⟨enter w t.sender b t.value, ?_, Or.inr rfl⟩
    dsimp only
    rw [e2]
    dsimp only
    have hc2 : (enter w t.sender b t.value).code b = [] := by
      unfold enter
      rw [txcode_transfer]
      split
      · exact hcode
      · unfold World.createAccount World.code
        rw [acct_modify, if_pos rfl]
        rfl
    have : ∀ ctx : Ctx, ctx.code = (enter w t.sender b t.value).code b → ∀ run gas, runCode run ctx (enter w t.sender b t.value) gas = ⟨.ok, enter w t.sender b t.value, gas, []⟩ := by
      intro ctx hx run gas
      unfold runCode
      rw [if_pos (by rw [hx, hc2])]
    exact congrArg (finish w) (this _ rfl _ _)

/-- A commit of a state without destroyed accounts in which no blocked account gained coins. -/
theorem plain_commit {c : Chain} {w0 w : World} (hs : Solvent w) (hc : Clean w) (hb : ∀ x, w0.balance x < w.balance x → c.blocked x = false) :
    ∃ w', commit c w0 w = some w' := by
  have hget : ∀ e ∈ w.accts, w.acct e.1 = some e.2 := fun e he => KV.get_of_mem hs.distinct he
  have h1 : undeletable w0 w = false := by
    unfold undeletable
    rw [List.any_eq_false]
    intro e he h
    rw [(hc.settled e.1 e.2 (hget e he)).2] at h
    cases h
  have h2 : unpayable c w0 w = false := by
    unfold unpayable
    rw [List.any_eq_false]
    intro e he h
    simp only [Bool.and_eq_true, decide_eq_true_eq] at h
    have hbal : w.balance e.1 = e.2.balance := by
      unfold World.balance
      rw [hget e he]
      rfl
    rw [← hbal] at h
    rw [hb e.1 h.2] at h
    exact Bool.noConfusion h.1.2
  unfold commit
  rw [h1, h2]
  exact ⟨_, rfl⟩

/-! ### Theorems -/

/-- The gas charged: what was used, of which at most a fifth is given back, and at least the minimum. -/
theorem gas_charged {c : Chain} {s : St} {t : Tx} {used : Nat} {ok : Bool} (h : (deliver c s t).2 = .done used ok) :
    ∃ w1 base, ante c base s.world t = some w1 ∧
      let r := execute c t base (prepare c t w1)
      let spent := t.gas - r.gas
      intrinsic t ≤ t.gas ∧ used = max (c.least t.gas) (spent - min r.world.refund (spent / 5)) := by
  unfold deliver at h
  cases hb : c.fee.base with
  | none => rw [hb] at h; cases h
  | some base =>
    rw [hb] at h
    dsimp only at h
    cases ha : ante c base s.world t with
    | none => rw [ha] at h; cases h
    | some w1 =>
      rw [ha] at h
      refine ⟨w1, base, ha, ?_⟩
      dsimp only at h
      unfold applyTx at h
      split at h
      · cases h
      · rename_i hi
        refine ⟨Nat.le_of_not_lt hi, ?_⟩
        dsimp only at h
        split at h
        · cases h
        · generalize execute c t base (prepare c t w1) = r at h ⊢
          have : ∀ {used ok}, (settle c t base ⟨w1, s.reg⟩ r).2 = .done used ok → used = gasUsed c t r := by
            intro used ok h
            unfold settle at h
            cases hcm : commit c w1 r.world with
            | none => rw [hcm] at h; cases h
            | some w =>
              rw [hcm] at h
              dsimp only at h
              split at h
              · cases h
              · generalize giveBack c _ t.sender _ = g at h
                cases g with
                | none => cases h
                | some w' => cases h; rfl
          rw [this h]
          unfold gasUsed
          rw [charged_eq, toRefund_eq]
          rfl

/-- A transfer to an account without code, if it is accepted, succeeds and does exactly that. -/
theorem plain_transfer {c : Chain} (hm : c.fee.mult ≤ FeeMarket.one) {s : St} {t : Tx} {b : Addr} (hs : Solvent s.world) (hc : Clean s.world)
    (hto : t.to = some b) (hp : c.vm.precompile b = none) (hh : c.vm.callHook t.sender b = true) (hcode : s.world.code b = []) (hi : intrinsic t ≤ t.gas)
    (hb : c.blocked b = false) (hr : Revenue.payee s.reg b = none) (ha : (deliver c s t).2 ≠ .refused) :
    (deliver c s t).2 = .done (max (c.least t.gas) (intrinsic t)) true ∧ Payment c t b (max (c.least t.gas) (intrinsic t) * c.unit t) s (deliver c s t).1 := by
  unfold deliver at ha ⊢
  unfold Chain.unit
  cases hbase : c.fee.base with
  | none => rw [hbase] at ha; exact absurd rfl ha
  | some base =>
    rw [hbase] at ha
    dsimp only at ha ⊢
    cases han : ante c base s.world t with
    | none => rw [han] at ha; exact absurd rfl ha
    | some w1 =>
      have hA := ante_admits han
      have hs1 := (hA.paid hs).solvent
      have hc1 := hA.clean hc
      have hbal1 : ∀ x, w1.balance x = s.world.balance x - (if x = t.sender then ((t.price.effective base * t.gas : Nat) : Int) else 0) +
          (if x = c.collector then ((t.price.effective base * t.gas : Nat) : Int) else 0) := by
        intro x
        rw [hA.world, balance_setNonce, balance_transfer]
      have hcode1 : w1.code b = [] := by rw [hA.world, txcode_setNonce, txcode_transfer]; exact hcode
      have hv : (t.value : Int) ≤ w1.balance t.sender := by
        have h1 := hbal1 t.sender
        have h2 := hA.funds
        rw [if_pos rfl] at h1
        have h3 : (0 : Int) ≤ (if t.sender = c.collector then ((t.price.effective base * t.gas : Nat) : Int) else 0) := by
          split
          · exact Int.natCast_nonneg _
          · exact Int.le_refl _
        generalize t.price.effective base * t.gas = p at *
        omega
      have hnonce1 : w1.nonce t.sender = s.world.nonce t.sender + 1 := by rw [hA.world, nonce_setNonce, if_pos rfl, hA.nonce]
      have hkept1 : ∀ x, x ≠ t.sender → s.world.exist x = true → Kept x s.world w1 := by
        intro x hx he
        rw [hA.world]
        exact (Kept.transfer he _ _ _).trans (Kept.modify_other hx)
      have hex1 : w1.exist t.sender = true := by
        rw [hA.world]
        unfold World.setNonce World.exist
        rw [acct_modify, if_pos rfl]
        rfl
      obtain ⟨w2, he, hw2⟩ := plain_execute (c := c) (base := base) (w := prepare c t w1) hto hp hh hcode1 hv
      have q : Conserves w1 (prepare c t w1) := Conserves.same hs1 rfl rfl
      have cl : Clean (prepare c t w1) := ⟨hc1.settled, hc1.absent⟩
      have hs2 : Solvent w2 := by
        rcases hw2 with ⟨e, _⟩ | e
        · rw [e]; exact q.solvent
        · rw [e]; exact (Conserves.enter (b := b) q.solvent (Int.natCast_nonneg _) (fun _ => hv)).solvent
      have hc2 : Clean w2 := by
        rcases hw2 with ⟨e, _⟩ | e
        · rw [e]; exact cl
        · rw [e]; exact cl.enter _ _ _
      have hbal2 : ∀ x, w2.balance x = w1.balance x - (if x = t.sender then (t.value : Int) else 0) + (if x = b then (t.value : Int) else 0) := by
        intro x
        rcases hw2 with ⟨e, e0⟩ | e
        · rw [e, e0]
          show w1.balance x = _
          split <;> split <;> omega
        · rw [e, balance_enter, balance_transfer]
          rfl
      have hkept2 : ∀ x, w1.exist x = true → Kept x w1 w2 := by
        intro x hx
        rcases hw2 with ⟨e, _⟩ | e
        · rw [e]; exact prepare_kept c t w1 x
        · rw [e]; exact (prepare_kept c t w1 x).trans (Kept.enter (w := prepare c t w1) hx _ _ _)
      obtain ⟨w3, h3⟩ := plain_commit (c := c) (w0 := w1) hs2 hc2 (by
        intro x hx
        rw [hbal2 x] at hx
        by_cases e : x = b
        · rw [e]; exact hb
        · rw [if_neg e] at hx
          split at hx <;> omega)
      have hk := commit_does hs2 h3
      have hbal3 : ∀ x, w3.balance x = w2.balance x := fun x => hk.balance x (hc2.suicided x)
      have hkept3 : ∀ x, Kept x w2 w3 := fun x => hk.kept x (hc2.suicided x)
      have hused : gasUsed c t ⟨.ok, w2, t.gas - intrinsic t, []⟩ = max (c.least t.gas) (intrinsic t) := by
        unfold gasUsed
        rw [charged_eq, toRefund_eq]
        have hr0 : w2.refund = 0 := by
          rcases hw2 with ⟨e, _⟩ | e
          · rw [e]; rfl
          · rw [e]; unfold enter; split <;> rfl
        show max _ (t.gas - (t.gas - intrinsic t) - min w2.refund _) = _
        rw [hr0, Nat.zero_min, show t.gas - (t.gas - intrinsic t) - 0 = intrinsic t by omega]
        rfl
      have hle : max (c.least t.gas) (intrinsic t) ≤ t.gas := by
        rw [← hused]
        exact gasUsed_le hm _ _
      dsimp only
      unfold applyTx
      rw [if_neg (Nat.not_lt.mpr hi)]
      dsimp only
      rw [he, if_neg (by intro h; rcases h with h | h <;> cases h)]
      unfold settle
      dsimp only
      rw [h3]
      dsimp only
      rw [if_neg (mult_fits hm hA.gas64), hused]
      generalize max (c.least t.gas) (intrinsic t) = used at *
      have hreg : registered c t s.reg = s.reg := by
        unfold registered
        rw [hto]
        rfl
      have hdist : distribute c t base used ⟨w3, registered c t s.reg⟩ = ⟨w3, s.reg⟩ := by
        unfold distribute
        rw [hto, hreg]
        dsimp only
        rw [hr]
        split <;> rfl
      have hok : (Status.ok == Status.ok) = true := rfl
      rw [hok, if_pos rfl, hdist]
      dsimp only
      have hsplit : (t.gas - used) * t.price.effective base + used * t.price.effective base = t.price.effective base * t.gas := by
        rw [← Nat.add_mul, Nat.sub_add_cancel hle, Nat.mul_comm]
      have hback : giveBack c w3 t.sender ((t.gas - used) * t.price.message base) = some (w3.transfer c.collector t.sender ((t.gas - used) * t.price.message base : Nat)) := by
        unfold giveBack
        rw [if_neg]
        rw [message_effective, hbal3, hbal2, hbal1, if_pos rfl]
        have h1 := hs.nonneg c.collector
        have h2 := hA.funds
        have h3 : (0 : Int) ≤ (if c.collector = b then (t.value : Int) else 0) := by split <;> omega
        generalize used * t.price.effective base = a at *
        generalize (t.gas - used) * t.price.effective base = d at *
        by_cases e : c.collector = t.sender
        · rw [if_pos e, if_pos e, ← hsplit]
          rw [← e, ← hsplit] at h2
          omega
        · rw [if_neg e, if_neg e, ← hsplit]
          omega
      rw [hback]
      refine ⟨rfl, ⟨?_, ?_, ?_, rfl⟩⟩
      · intro x
        show (w3.transfer c.collector t.sender _).balance x = _
        rw [balance_transfer, hbal3, hbal2, hbal1, message_effective]
        show _ = s.world.balance x - (if x = t.sender then ((t.value + used * t.price.effective base : Nat) : Int) else 0) + _ + (if x = c.collector then ((used * t.price.effective base : Nat) : Int) else 0)
        rw [← hsplit]
        generalize used * t.price.effective base = a at *
        generalize (t.gas - used) * t.price.effective base = d at *
        split <;> split <;> split <;> omega
      · intro x hx hex
        have k1 := hkept1 x hx hex
        have e1 := k1.exist.trans hex
        have k2 := (k1.trans (hkept2 x e1)).trans (hkept3 x)
        exact k2.trans (Kept.transfer (k2.exist.trans hex) _ _ _)
      · show (w3.transfer _ _ _).nonce _ = _
        have k2 := (hkept2 _ hex1).trans (hkept3 _)
        have k3 := k2.trans (Kept.transfer (k2.exist.trans hex1) c.collector t.sender ((t.gas - used) * t.price.message base : Nat))
        rw [k3.nonce, hnonce1]

/-! ### Examples -/

/-- A transfer to 0x22, with a limit of 100000 of which half is the minimum. -/
def payTx : Tx := { demoTx with to := some 0x22#160, data := [], gas := 100000 }
example : intrinsic payTx ≤ payTx.gas ∧ demoSt.world.code 0x22#160 = [] ∧ demoChain.vm.callHook payTx.sender 0x22#160 = true ∧ (Revenue.payee demoSt.reg 0x22#160) = none ∧
    (demoChain.vm.precompile 0x22#160).isNone ∧ demoChain.blocked 0x22#160 = false ∧ (deliver demoChain demoSt payTx).2 ≠ .refused ∧ demoChain.fee.mult ≤ FeeMarket.one := by decide +kernel
example : (deliver demoChain demoSt payTx).2 = .done 50000 true ∧ (deliver demoChain demoSt { payTx with gas := 30000 }).2 = .done 21000 true ∧
    (deliver demoChain demoSt payTx).1.world.balance 0x22#160 = 12 := by decide +kernel

end VM
