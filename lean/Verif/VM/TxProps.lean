import Verif.VM.TxLemmas
/-!
# What a whole transaction may do (C77) and that it happens once (C78)

C77: a transaction keeps the sum of all coins; if it fails it costs its sender the fee and changes nothing else; if it succeeds it takes from its sender at most the
value and the fee for the gas used, takes nothing from other accounts without code, and the chain and the developer together get exactly that fee; it ends in an
error only for a few named reasons, and the refund of gas is never one of them.

C78: no transaction is accepted twice, and the transactions of a sender are accepted in the order of their nonces.
-/
namespace VM

/-! ### Specification -/

/-- The price of a unit of gas for the sender. -/
def Chain.unit (c : Chain) (t : Tx) : Nat := t.price.effective (c.fee.base.getD 0)

/-- `s'` is `s` but for `fee` coins that went from the sender to the collector and the nonce of the sender. -/
structure OnlyFee (c : Chain) (t : Tx) (fee : Nat) (s s' : St) : Prop where
  others : ∀ a, a ≠ t.sender → a ≠ c.collector → s'.world.acct a = s.world.acct a
  store : s'.world.store = s.world.store
  reg : s'.reg = s.reg
  nonce : s'.world.nonce t.sender = s.world.nonce t.sender + 1
  code : s'.world.code t.sender = s.world.code t.sender
  paid : s'.world.balance t.sender = s.world.balance t.sender - fee
  received : s'.world.balance c.collector = s.world.balance c.collector + fee

/-! ### Proof -/

theorem effective_le_cap (base : Nat) (p : FeeMarket.Price) : p.effective base ≤ p.cap := by
  cases p with
  | legacy q => exact Nat.le_refl q
  | dynamic a b => exact Nat.min_le_right _ _

/-- What the ante handler checked and did. -/
structure Admitted (c : Chain) (base : Nat) (t : Tx) (w w1 : World) : Prop where
  gas : t.gas < 2 ^ 63
  code : w.code t.sender = []
  funds : ((t.price.effective base * t.gas + t.value : Nat) : Int) ≤ w.balance t.sender
  nonce : t.nonce = w.nonce t.sender
  world : w1 = (w.transfer t.sender c.collector (t.price.effective base * t.gas : Nat)).setNonce t.sender (t.nonce + 1)

theorem ante_admits {c : Chain} {base : Nat} {t : Tx} {w w1 : World} (h : ante c base w t = some w1) : Admitted c base t w w1 := by
  unfold ante at h
  split at h
  · rename_i hc
    cases h
    simp only [Bool.and_eq_true, FeeMarket.basic, accountChecks, decide_eq_true_eq, Tx.fees] at hc
    obtain ⟨⟨⟨⟨⟨⟨⟨⟨_, h1⟩, _⟩, _⟩, _⟩, _⟩, _⟩, ⟨⟨h2, h3⟩, _⟩, h4⟩, _⟩ := hc
    refine ⟨of_decide_eq_true h1, h2, Int.le_trans (Int.ofNat_le.mpr ?_) h3, h4, rfl⟩
    exact Nat.add_le_add_right (Nat.mul_le_mul_right _ (effective_le_cap base t.price)) _
  · cases h

theorem Admitted.fee_le {c : Chain} {base : Nat} {t : Tx} {w w1 : World} (h : Admitted c base t w w1) : ((t.price.effective base * t.gas : Nat) : Int) ≤ w.balance t.sender :=
  Int.le_trans (Int.ofNat_le.mpr (Nat.le_add_right _ _)) h.funds

/-- The three ways in which an accepted transaction can end. -/
inductive Ended (c : Chain) (t : Tx) (base : Nat) (s1 s' : St) : FeeMarket.Result → Prop
  | error : s' = s1 → Ended c t base s1 s' .error
  | failed (r : Res) : giveBack c s1.world t.sender ((t.gas - gasUsed c t r) * t.price.message base) = some s'.world → s'.reg = s1.reg →
      Ended c t base s1 s' (.done (gasUsed c t r) false)
  | done (r : Res) (w : World) : r = execute c t base (prepare c t s1.world) → r.status = .ok → commit c s1.world r.world = some w →
      giveBack c (distribute c t base (gasUsed c t r) ⟨w, registered c t s1.reg⟩).world t.sender ((t.gas - gasUsed c t r) * t.price.message base) = some s'.world →
      s'.reg = registered c t s1.reg → Ended c t base s1 s' (.done (gasUsed c t r) true)

theorem settle_ends (c : Chain) (t : Tx) (base : Nat) (s1 : St) {r : Res} (hr : r = execute c t base (prepare c t s1.world)) :
    Ended c t base s1 (settle c t base s1 r).1 (settle c t base s1 r).2 := by
  unfold settle
  cases hc : commit c s1.world r.world with
  | none => exact .error rfl
  | some w =>
    dsimp only
    split
    · exact .error rfl
    · by_cases hok : r.status = .ok
      · have e : (r.status == .ok) = true := by rw [hok]; rfl
        rw [e, if_pos rfl]
        cases hg : giveBack c (distribute c t base (gasUsed c t r) ⟨w, registered c t s1.reg⟩).world t.sender ((t.gas - gasUsed c t r) * t.price.message base) with
        | none => exact .error rfl
        | some w' => exact .done r w hr hok hc hg (distribute_reg c t base _ _)
      · have e : (r.status == .ok) = false := by
          cases hs : r.status
          · exact absurd hs hok
          all_goals rfl
        rw [e, if_neg Bool.false_ne_true]
        cases hg : giveBack c s1.world t.sender ((t.gas - gasUsed c t r) * t.price.message base) with
        | none => exact .error rfl
        | some w' => exact .failed r hg rfl

theorem applyTx_ends (c : Chain) (t : Tx) (base : Nat) (s1 : St) : Ended c t base s1 (applyTx c t base s1).1 (applyTx c t base s1).2 := by
  unfold applyTx
  split
  · exact .error rfl
  · dsimp only
    split
    · exact .error rfl
    · exact settle_ends c t base s1 rfl

theorem deliver_ends (c : Chain) (s : St) (t : Tx) : (deliver c s t = (s, .refused)) ∨
    ∃ base w1, c.fee.base = some base ∧ Admitted c base t s.world w1 ∧ Ended c t base { s with world := w1 } (deliver c s t).1 (deliver c s t).2 := by
  unfold deliver
  cases hb : c.fee.base with
  | none => exact Or.inl rfl
  | some base =>
    dsimp only
    cases ha : ante c base s.world t with
    | none => exact Or.inl rfl
    | some w1 => exact Or.inr ⟨base, w1, rfl, ante_admits ha, applyTx_ends c t base _⟩

theorem Admitted.paid {c : Chain} {base : Nat} {t : Tx} {w w1 : World} (h : Admitted c base t w w1) (hs : Solvent w) : Conserves w w1 := by
  have h1 := Conserves.transfer (b := c.collector) hs (Int.natCast_nonneg (t.price.effective base * t.gas)) h.fee_le
  rw [h.world]
  exact h1.trans (Conserves.setNonce h1.solvent _ _)

theorem Admitted.clean {c : Chain} {base : Nat} {t : Tx} {w w1 : World} (h : Admitted c base t w w1) (hc : Clean w) : Clean w1 := by
  rw [h.world]
  exact (hc.transfer _ _ _).setNonce _ _

theorem Admitted.gas64 {c : Chain} {base : Nat} {t : Tx} {w w1 : World} (h : Admitted c base t w w1) : t.gas < 2 ^ 64 := Nat.lt_trans h.gas (by decide)

theorem prepare_warm {c : Chain} {t : Tx} {w : World} : ∀ b, t.to = some b → (prepare c t w).warmA b = true := by
  intro b hb
  simp [prepare, hb]

/-- Preparing changes neither accounts nor storage. -/
theorem prepare_kept (c : Chain) (t : Tx) (w : World) (x : Addr) : Kept x w (prepare c t w) := Kept.of_acct rfl rfl

/-! ### Theorems: coins -/

/-- A transaction creates and loses no coins, makes no debts, and leaves a clean state. -/
theorem tx_conserves {c : Chain} (hP : PrecompilesPay c.vm) (hC : PrecompilesConserve c.vm) {s : St} (t : Tx) (hs : Solvent s.world) (hc : Clean s.world) :
    let s' := (deliver c s t).1
    Solvent s'.world ∧ Clean s'.world ∧ s'.world.total + s'.world.burnt = s.world.total + s.world.burnt := by
  intro s'
  rcases deliver_ends c s t with h | ⟨base, w1, hb, ha, he⟩
  · have : s' = s := congrArg Prod.fst h
    rw [this]
    exact ⟨hs, hc, rfl⟩
  · have h1 := ha.paid hs
    have c1 := ha.clean hc
    suffices Conserves w1 s'.world ∧ Clean s'.world from ⟨this.1.solvent, this.2, this.1.total.trans h1.total⟩
    have hs' : s' = (deliver c s t).1 := rfl
    rw [← hs'] at he
    generalize (deliver c s t).2 = res at he
    cases he with
    | error e => rw [e]; exact ⟨Conserves.refl h1.solvent, c1⟩
    | failed r hg _ =>
      have p := (giveBack_pays h1.solvent hg).1
      exact ⟨p.conserves, p.clean c1⟩
    | done r w hr hok hcm hg _ =>
      subst hr
      have hp := execute_conserves hP hC base ha.gas64 (w := prepare c t w1) (Conserves.same (w' := prepare c t w1) h1.solvent rfl rfl).solvent prepare_warm (by rw [hok]; intro h; cases h)
      have hk := commit_does hp.solvent hcm
      have hd := distribute_pays c t base (gasUsed c t (execute c t base (prepare c t w1))) (s := ⟨w, registered c t s.reg⟩) hk.conserves.solvent
      have p := (giveBack_pays hd.conserves.solvent hg).1
      have q : Conserves w1 (prepare c t w1) := Conserves.same h1.solvent rfl rfl
      exact ⟨(((q.trans hp).trans hk.conserves).trans hd.conserves).trans p.conserves, p.clean (hd.clean hk.clean)⟩

theorem refused_tx_changes_nothing {c : Chain} {s : St} {t : Tx} (h : (deliver c s t).2 = .refused) : (deliver c s t).1 = s := by
  rcases deliver_ends c s t with h' | ⟨base, w1, _, _, he⟩
  · rw [h']
  · rw [h] at he
    cases he

/-! ### Theorems: failures -/

theorem txcode_modify (w : World) (a : Addr) (f : Acct → Acct) (hf : ∀ d, (f d).code = d.code) (x : Addr) : (w.modify a f).code x = w.code x := by
  unfold World.code
  rw [acct_modify]
  split
  · rename_i e
    rw [e]
    show (f _).code = _
    rw [hf]
    cases w.acct a <;> rfl
  · rfl

theorem txcode_setNonce (w : World) (a : Addr) (n : Nat) (x : Addr) : (w.setNonce a n).code x = w.code x := txcode_modify w a (fun c => { c with nonce := n }) (fun _ => rfl) x
theorem txcode_transfer (w : World) (a b : Addr) (v : Int) (x : Addr) : (w.transfer a b v).code x = w.code x := by
  unfold World.transfer World.addBalance World.subBalance
  rw [txcode_modify _ b (fun c => { c with balance := c.balance + v }) (fun _ => rfl), txcode_modify _ a (fun c => { c with balance := c.balance - v }) (fun _ => rfl)]

theorem admitted_onlyFee {c : Chain} {base : Nat} {t : Tx} {s : St} {w1 w' : World} (ha : Admitted c base t s.world w1) (hne : t.sender ≠ c.collector) {back fee : Nat}
    (hf : fee + back = t.price.effective base * t.gas) (hw : w' = w1 ∧ back = 0 ∨ w' = w1.transfer c.collector t.sender (back : Nat)) : OnlyFee c t fee s { s with world := w' } := by
  have hacct : ∀ a, a ≠ t.sender → a ≠ c.collector → w1.acct a = s.world.acct a := by
    intro a h1 h2
    rw [ha.world]
    unfold World.setNonce World.transfer World.addBalance World.subBalance
    rw [acct_modify, if_neg h1, acct_modify, if_neg h2, acct_modify, if_neg h1]
  have hacct' : ∀ a, a ≠ t.sender → a ≠ c.collector → w'.acct a = s.world.acct a := by
    intro a h1 h2
    rw [← hacct a h1 h2]
    rcases hw with ⟨e, _⟩ | e
    · rw [e]
    · rw [e]
      unfold World.transfer World.addBalance World.subBalance
      rw [acct_modify, if_neg h1, acct_modify, if_neg h2]
  have hst1 : w1.store = s.world.store := by rw [ha.world]; rfl
  have hst : w'.store = s.world.store := by
    rw [← hst1]
    rcases hw with ⟨e, _⟩ | e <;> rw [e] <;> rfl
  have hb1 : ∀ x, w1.balance x = s.world.balance x - (if x = t.sender then ((t.price.effective base * t.gas : Nat) : Int) else 0) + (if x = c.collector then ((t.price.effective base * t.gas : Nat) : Int) else 0) := by
    intro x
    rw [ha.world, balance_setNonce, balance_transfer]
  have hn1 : w1.nonce t.sender = s.world.nonce t.sender + 1 := by
    rw [ha.world, nonce_setNonce, if_pos rfl, ha.nonce]
  have hex : w1.exist t.sender = true := by
    rw [ha.world]
    unfold World.setNonce World.exist
    rw [acct_modify, if_pos rfl]
    rfl
  have hc1 : w1.code t.sender = s.world.code t.sender := by
    rw [ha.world, txcode_setNonce, txcode_transfer]
  have hk : Kept t.sender w1 w' := by
    rcases hw with ⟨e, _⟩ | e
    · rw [e]; exact Kept.refl _ _
    · rw [e]; exact Kept.transfer hex _ _ _
  have hne' : c.collector ≠ t.sender := fun e => hne e.symm
  have hbal : w'.balance t.sender = s.world.balance t.sender - fee ∧ w'.balance c.collector = s.world.balance c.collector + fee := by
    have hs1 := hb1 t.sender
    have hs2 := hb1 c.collector
    rw [if_pos rfl, if_neg hne] at hs1
    rw [if_neg hne', if_pos rfl] at hs2
    rw [← hf] at hs1 hs2
    rcases hw with ⟨e, e0⟩ | e
    · rw [e, hs1, hs2, e0]
      omega
    · rw [e, balance_transfer, balance_transfer, if_neg hne, if_pos rfl, if_pos rfl, if_neg hne', hs1, hs2]
      omega
  exact ⟨hacct', hst, rfl, hk.nonce.trans hn1, hk.code.trans hc1, hbal.1, hbal.2⟩

/-- An error costs the sender the whole gas limit, and does nothing else. -/
theorem error_costs_limit {c : Chain} {s : St} {t : Tx} (hne : t.sender ≠ c.collector) (h : (deliver c s t).2 = .error) :
    OnlyFee c t (t.gas * c.unit t) s (deliver c s t).1 := by
  rcases deliver_ends c s t with h' | ⟨base, w1, hb, ha, he⟩
  · rw [h'] at h; cases h
  · rw [h] at he
    cases he with
    | error e =>
      rw [e]
      refine admitted_onlyFee ha hne (back := 0) ?_ (Or.inl ⟨rfl, rfl⟩)
      unfold Chain.unit
      rw [hb]
      exact Nat.mul_comm _ _

/-- A failed execution costs the sender the gas that was used, and does nothing else. -/
theorem failure_costs_gas {c : Chain} (hm : c.fee.mult ≤ FeeMarket.one) {s : St} {t : Tx} (hne : t.sender ≠ c.collector) {used : Nat} (h : (deliver c s t).2 = .done used false) :
    used ≤ t.gas ∧ OnlyFee c t (used * c.unit t) s (deliver c s t).1 := by
  rcases deliver_ends c s t with h' | ⟨base, w1, hb, ha, he⟩
  · rw [h'] at h; cases h
  · rw [h] at he
    generalize (deliver c s t).1 = s' at he ⊢
    cases he with
    | failed r hg hreg =>
      refine ⟨gasUsed_le hm t r, ?_⟩
      have e : s' = { s with world := s'.world } := by
        cases s'
        cases hreg
        rfl
      have hw : s'.world = w1.transfer c.collector t.sender ((t.gas - gasUsed c t r) * t.price.message base : Nat) := by
        unfold giveBack at hg
        split at hg
        · cases hg
        · exact (Option.some.inj hg).symm
      rw [e]
      refine admitted_onlyFee ha hne (back := (t.gas - gasUsed c t r) * t.price.message base) ?_ (Or.inr hw)
      unfold Chain.unit
      rw [hb, message_effective]
      show gasUsed c t r * t.price.effective base + (t.gas - gasUsed c t r) * t.price.effective base = _
      rw [← Nat.add_mul, Nat.add_sub_cancel' (gasUsed_le hm t r), Nat.mul_comm]

/-! ### Theorems: other accounts -/

theorem Admitted.kept {c : Chain} {base : Nat} {t : Tx} {w w1 : World} (h : Admitted c base t w w1) {x : Addr} (hx : x ≠ t.sender) (he : w.exist x = true) :
    Kept x w w1 ∧ w.balance x ≤ w1.balance x := by
  rw [h.world]
  refine ⟨(Kept.transfer he _ _ _).trans (Kept.modify_other hx), ?_⟩
  rw [balance_setNonce]
  exact balance_transfer_le hx _ (Int.natCast_nonneg _)

/-- Facts about the sender after the ante handler. -/
theorem Admitted.sender {c : Chain} {base : Nat} {t : Tx} {w w1 : World} (h : Admitted c base t w w1) (hne : t.sender ≠ c.collector) :
    w1.exist t.sender = true ∧ w1.code t.sender = [] ∧ w1.nonce t.sender = t.nonce + 1 ∧ w1.balance t.sender = w.balance t.sender - (t.price.effective base * t.gas : Nat) := by
  have := admitted_onlyFee (s := ⟨w, {}⟩) h hne (back := 0) rfl (Or.inl ⟨rfl, rfl⟩)
  refine ⟨?_, this.code.trans h.code, this.nonce.trans (by rw [h.nonce]), this.paid⟩
  rw [h.world]
  unfold World.setNonce World.exist
  rw [acct_modify, if_pos rfl]
  rfl

/-- What a successful transaction does between the ante handler and the refund. -/
structure Ran (G E : Addr → Prop) (c : Chain) (t : Tx) (base used : Nat) (w1 w' : World) : Prop where
  sender : Kept t.sender w1 w'
  others : ∀ x, x ≠ t.sender → w1.idle G x → Kept x w1 w'
  balance : ∀ x, x ≠ t.sender → x ≠ c.collector → w1.idle G x → ¬ E x → w1.balance x ≤ w'.balance x
  spent : (∀ b, t.to = some b → c.vm.precompile b = none) → ¬ E t.sender → w1.balance t.sender - t.value ≤ w'.balance t.sender
  collector : w1.idle G c.collector → ¬ E c.collector → w1.balance c.collector - (Revenue.portion c.revenue.share (used * t.price.message base) : Nat) ≤ w'.balance c.collector

theorem run_does {G E : Addr → Prop} {c : Chain} (h : c.Sound G E) {t : Tx} {base : Nat} {w1 w : World} {reg : Revenue.Registry} (hs : Solvent w1) (hc : Clean w1) (hgas : t.gas < 2 ^ 64)
    (hx : w1.exist t.sender = true) (hcode : w1.code t.sender = []) (hn : w1.nonce t.sender = t.nonce + 1) (hne : t.sender ≠ c.collector)
    (hok : (execute c t base (prepare c t w1)).status = .ok) (hcm : commit c w1 (execute c t base (prepare c t w1)).world = some w) (used : Nat) :
    Solvent (distribute c t base used ⟨w, reg⟩).world ∧ Ran G E c t base used w1 (distribute c t base used ⟨w, reg⟩).world := by
  have q : Conserves w1 (prepare c t w1) := Conserves.same hs rfl rfl
  have hx0 := execute_does h (t := t) base (w := prepare c t w1) hgas q.solvent hx hcode hn prepare_warm (by rw [hok]; intro h; cases h) (by rw [hok]; intro h; cases h)
  have hk := commit_does hx0.conserves.solvent hcm
  have hd := distribute_pays c t base used (s := ⟨w, reg⟩) hk.conserves.solvent
  generalize execute c t base (prepare c t w1) = r at *
  have idle0 : ∀ x, w1.idle G x → (prepare c t w1).idle G x := fun x hx => (prepare_kept c t w1 x).idle hx
  have kE : ∀ x, x ≠ t.sender → w1.idle G x → Kept x w1 r.world := fun x h1 h2 => (prepare_kept c t w1 x).trans (hx0.spared.kept x h1 (idle0 x h2))
  have kS : Kept t.sender w1 r.world := (prepare_kept c t w1 t.sender).trans hx0.sender
  have sui : ∀ x, Kept x w1 r.world → r.world.suicided x = false := fun x hk => hk.suicided.trans (hc.suicided x)
  have kD : ∀ x, w1.exist x = true → Kept x w1 r.world → Kept x w1 (distribute c t base used ⟨w, reg⟩).world := by
    intro x he k
    have k2 := k.trans (hk.kept x (sui x k))
    exact k2.trans (hd.kept x (k2.exist.trans he))
  have bD : ∀ x, x ≠ c.collector → Kept x w1 r.world → r.world.balance x ≤ (distribute c t base used ⟨w, reg⟩).world.balance x := by
    intro x hcx k
    rw [← hk.balance x (sui x k)]
    exact hd.balance x hcx
  refine ⟨hd.conserves.solvent, ⟨kD _ hx kS, fun x h1 h2 => kD x h2.1 (kE x h1 h2), ?_, ?_, ?_⟩⟩
  · intro x h1 h2 h3 h4
    exact Int.le_trans (hx0.spared.balance x h1 (idle0 x h3) h4) (bD x h2 (kE x h1 h3))
  · intro hp hE
    exact Int.le_trans (hx0.balance hp hE) (bD _ hne kS)
  · intro hi hE
    have hcs : c.collector ≠ t.sender := fun e => hne e.symm
    have b1 : w1.balance c.collector ≤ r.world.balance c.collector := hx0.spared.balance c.collector hcs (idle0 _ hi) hE
    have b2 := hk.balance c.collector (sui _ (kE _ hcs hi))
    have b3 : w.balance c.collector - (Revenue.portion c.revenue.share (used * t.price.message base) : Nat) ≤ (distribute c t base used ⟨w, reg⟩).world.balance c.collector := hd.source
    omega

/-- Whatever a transaction does, an account without code that did not send it (and that has been used, or at which no contract can be created) keeps nonce, code and
storage; and its balance does not fall, unless it is the collector or precompiled contracts may take its coins. -/
theorem tx_spares_others {G E : Addr → Prop} {c : Chain} (h : c.Sound G E) {s : St} {t : Tx} (hs : Solvent s.world) (hc : Clean s.world) (hne : t.sender ≠ c.collector)
    {x : Addr} (hx : x ≠ t.sender) (hi : s.world.idle G x) :
    let s' := (deliver c s t).1
    Kept x s.world s'.world ∧ (x ≠ c.collector → ¬ E x → s.world.balance x ≤ s'.world.balance x) := by
  intro s'
  rcases deliver_ends c s t with h' | ⟨base, w1, hb, ha, he⟩
  · have : s' = s := congrArg Prod.fst h'
    rw [this]
    exact ⟨Kept.refl _ _, fun _ _ => Int.le_refl _⟩
  · have h1 := ha.paid hs
    have c1 := ha.clean hc
    obtain ⟨k1, b1⟩ := ha.kept hx hi.1
    suffices Kept x w1 s'.world ∧ (x ≠ c.collector → ¬ E x → w1.balance x ≤ s'.world.balance x) from
      ⟨k1.trans this.1, fun h2 h3 => Int.le_trans b1 (this.2 h2 h3)⟩
    have hs' : s' = (deliver c s t).1 := rfl
    rw [← hs'] at he
    have hx1 : w1.exist x = true := k1.exist.trans hi.1
    generalize (deliver c s t).2 = res at he
    cases he with
    | error e => rw [e]; exact ⟨Kept.refl _ _, fun _ _ => Int.le_refl _⟩
    | failed r hg _ =>
      have p := (giveBack_pays h1.solvent hg).1
      exact ⟨p.kept x hx1, fun h2 _ => p.balance x h2⟩
    | done r w hr hok hcm hg _ =>
      subst hr
      obtain ⟨e1, e2, e3, _⟩ := ha.sender hne
      obtain ⟨sd, rn⟩ := run_does h (reg := registered c t s.reg) h1.solvent c1 ha.gas64 e1 e2 e3 hne hok hcm (gasUsed c t (execute c t base (prepare c t w1)))
      have p := (giveBack_pays sd hg).1
      have kr := rn.others x hx (k1.idle hi)
      exact ⟨kr.trans (p.kept x (kr.exist.trans hx1)), fun h2 h3 => Int.le_trans (rn.balance x hx h2 (k1.idle hi) h3) (p.balance x h2)⟩

/-! ### Theorems: the sender -/

/-- An accepted transaction had the nonce of its sender, and the sender then has the next one, and still no code. -/
theorem tx_nonce {G E : Addr → Prop} {c : Chain} (h : c.Sound G E) {s : St} {t : Tx} (hs : Solvent s.world) (hc : Clean s.world) (hne : t.sender ≠ c.collector)
    (hr : (deliver c s t).2 ≠ .refused) :
    s.world.nonce t.sender = t.nonce ∧ (deliver c s t).1.world.nonce t.sender = t.nonce + 1 ∧ (deliver c s t).1.world.idle G t.sender := by
  rcases deliver_ends c s t with h' | ⟨base, w1, hb, ha, he⟩
  · rw [h'] at hr; exact absurd rfl hr
  · refine ⟨ha.nonce.symm, ?_⟩
    have h1 := ha.paid hs
    obtain ⟨e1, e2, e3, _⟩ := ha.sender hne
    have i1 : w1.idle G t.sender := ⟨e1, e2, Or.inl (by rw [e3]; exact Nat.succ_ne_zero _)⟩
    suffices Kept t.sender w1 (deliver c s t).1.world from ⟨this.nonce.trans e3, this.idle i1⟩
    generalize (deliver c s t).1 = s' at he ⊢
    generalize (deliver c s t).2 = res at he
    cases he with
    | error e => rw [e]; exact Kept.refl _ _
    | failed r hg _ => exact (giveBack_pays h1.solvent hg).1.kept _ e1
    | done r w hrr hok hcm hg _ =>
      subst hrr
      obtain ⟨sd, rn⟩ := run_does h (reg := registered c t s.reg) h1.solvent (ha.clean hc) ha.gas64 e1 e2 e3 hne hok hcm (gasUsed c t (execute c t base (prepare c t w1)))
      exact rn.sender.trans ((giveBack_pays sd hg).1.kept _ (rn.sender.exist.trans e1))

/-- A successful transaction costs its sender at most the value and the gas used, if it does not call a precompiled contract itself and precompiled contracts called by
others do not take coins of the sender. -/
theorem sender_loses_at_most {G E : Addr → Prop} {c : Chain} (h : c.Sound G E) (hm : c.fee.mult ≤ FeeMarket.one) {s : St} {t : Tx} (hs : Solvent s.world) (hc : Clean s.world)
    (hne : t.sender ≠ c.collector) (hE : ¬ E t.sender) (hp : ∀ b, t.to = some b → c.vm.precompile b = none) {used : Nat} (hr : (deliver c s t).2 = .done used true) :
    s.world.balance t.sender - t.value - (used * c.unit t : Nat) ≤ (deliver c s t).1.world.balance t.sender := by
  rcases deliver_ends c s t with h' | ⟨base, w1, hb, ha, he⟩
  · rw [h'] at hr; cases hr
  · have h1 := ha.paid hs
    obtain ⟨e1, e2, e3, e4⟩ := ha.sender hne
    rw [hr] at he
    generalize (deliver c s t).1 = s' at he ⊢
    cases he with
    | done r w hrr hok hcm hg _ =>
      subst hrr
      obtain ⟨sd, rn⟩ := run_does h (reg := registered c t s.reg) h1.solvent (ha.clean hc) ha.gas64 e1 e2 e3 hne hok hcm (gasUsed c t (execute c t base (prepare c t w1)))
      have b1 := rn.spent hp hE
      have b2 := (giveBack_pays sd hg).2
      have hu := gasUsed_le hm t (execute c t base (prepare c t w1))
      unfold Chain.unit
      rw [hb]
      show _ - ((gasUsed c t _ * t.price.effective base : Nat) : Int) ≤ _
      rw [b2, balance_transfer, if_neg hne, if_pos rfl]
      generalize gasUsed c t (execute c t base (prepare c t w1)) = u at *
      rw [message_effective]
      have : (u * t.price.effective base + (t.gas - u) * t.price.effective base : Nat) = t.price.effective base * t.gas := by
        rw [← Nat.add_mul, Nat.add_sub_cancel' hu, Nat.mul_comm]
      rw [← this] at e4
      omega

/-! ### Theorems: the collector -/

/-- The collector gets the fee for the gas used but for the share of the developer, whatever the transaction does. -/
theorem collector_is_paid {G E : Addr → Prop} {c : Chain} (h : c.Sound G E) (hm : c.fee.mult ≤ FeeMarket.one) {s : St} {t : Tx} (hs : Solvent s.world) (hc : Clean s.world)
    (hne : t.sender ≠ c.collector) (hi : s.world.idle G c.collector) (hE : ¬ E c.collector) {used : Nat} (hr : (deliver c s t).2 = .done used true) :
    s.world.balance c.collector + (used * c.unit t : Nat) - (Revenue.portion c.revenue.share (used * c.unit t) : Nat) ≤ (deliver c s t).1.world.balance c.collector := by
  rcases deliver_ends c s t with h' | ⟨base, w1, hb, ha, he⟩
  · rw [h'] at hr; cases hr
  · have h1 := ha.paid hs
    have hcs : c.collector ≠ t.sender := fun e => hne e.symm
    obtain ⟨e1, e2, e3, _⟩ := ha.sender hne
    have k1 := (ha.kept hcs hi.1).1
    have b0 : w1.balance c.collector = s.world.balance c.collector + (t.price.effective base * t.gas : Nat) := by
      rw [ha.world, balance_setNonce, balance_transfer, if_neg hcs, if_pos rfl]
      omega
    rw [hr] at he
    generalize (deliver c s t).1 = s' at he ⊢
    cases he with
    | done r w hrr hok hcm hg _ =>
      subst hrr
      obtain ⟨sd, rn⟩ := run_does h (reg := registered c t s.reg) h1.solvent (ha.clean hc) ha.gas64 e1 e2 e3 hne hok hcm (gasUsed c t (execute c t base (prepare c t w1)))
      have b1 := rn.collector (k1.idle hi) hE
      have b2 := (giveBack_pays sd hg).2
      have hu := gasUsed_le hm t (execute c t base (prepare c t w1))
      have hun : c.unit t = t.price.effective base := by unfold Chain.unit; rw [hb]; rfl
      rw [hun, b2, balance_transfer, if_pos rfl, if_neg hcs]
      rw [message_effective] at b1 ⊢
      generalize gasUsed c t (execute c t base (prepare c t w1)) = u at *
      have : (u * t.price.effective base + (t.gas - u) * t.price.effective base : Nat) = t.price.effective base * t.gas := by
        rw [← Nat.add_mul, Nat.add_sub_cancel' hu, Nat.mul_comm]
      rw [← this] at b0
      omega

theorem mult_fits {mult gas : Nat} (hm : mult ≤ FeeMarket.one) (hg : gas < 2 ^ 64) : ¬ 2 ^ 64 ≤ gas * mult / FeeMarket.one := by
  refine Nat.not_le.mpr (Nat.lt_of_le_of_lt ?_ hg)
  refine Nat.div_le_of_le_mul ?_
  rw [Nat.mul_comm FeeMarket.one]
  exact Nat.mul_le_mul_left _ hm

/-- An accepted transaction ends in an error only if its gas does not cover the intrinsic gas, or if a contract was destroyed at an address that had an account without
code before, or if coins went to an account that may not receive any. In particular never because gas cannot be refunded, and never by a panic. -/
theorem tx_error_reasons {G E : Addr → Prop} {c : Chain} (h : c.Sound G E) (hT : PrecompilesTame c.vm) (hm : c.fee.mult ≤ FeeMarket.one) (hsh : c.revenue.share ≤ 10 ^ 18) {s : St} {t : Tx}
    (hs : Solvent s.world) (hc : Clean s.world) (hne : t.sender ≠ c.collector) (hi : s.world.idle G c.collector) (hE : ¬ E c.collector) (hr : (deliver c s t).2 = .error) :
    t.gas < intrinsic t ∨ ∃ base w1, ante c base s.world t = some w1 ∧
      let w := (execute c t base (prepare c t w1)).world
      (∃ a d, (a, d) ∈ w.accts ∧ d.suicided = true ∧ w1.exist a = true ∧ w1.code a = []) ∨
      (∃ a d, (a, d) ∈ w.accts ∧ d.suicided = false ∧ c.blocked a = true ∧ w1.balance a < d.balance) := by
  unfold deliver at hr
  cases hb : c.fee.base with
  | none => rw [hb] at hr; cases hr
  | some base =>
    rw [hb] at hr
    dsimp only at hr
    cases hante : ante c base s.world t with
    | none => rw [hante] at hr; cases hr
    | some w1 =>
      rw [hante] at hr
      dsimp only at hr
      have ha := ante_admits hante
      have h1 := ha.paid hs
      have c1 := ha.clean hc
      have hcs : c.collector ≠ t.sender := fun e => hne e.symm
      obtain ⟨e1, e2, e3, _⟩ := ha.sender hne
      have k1 := (ha.kept hcs hi.1).1
      have hbc := (hs.nonneg c.collector)
      have b0 : w1.balance c.collector = s.world.balance c.collector + (t.price.effective base * t.gas : Nat) := by
        rw [ha.world, balance_setNonce, balance_transfer, if_neg hcs, if_pos rfl]
        omega
      unfold applyTx at hr
      split at hr
      · rename_i hg; exact Or.inl hg
      · refine Or.inr ⟨base, w1, hante, ?_⟩
        dsimp only at hr ⊢
        rw [if_neg (by
          intro hx
          rcases hx with hx | hx
          · exact execute_safe h.pay hT base ha.gas64 c1 hx
          · exact (execute_terminates h.pay base _ ha.gas64).1 hx)] at hr
        unfold settle at hr
        cases hcm : commit c w1 (execute c t base (prepare c t w1)).world with
        | none =>
          unfold commit at hcm
          split at hcm
          · rename_i hu
            rcases Bool.or_eq_true _ _ ▸ hu with hu | hu
            · left
              unfold undeletable at hu
              obtain ⟨⟨a, d⟩, hm1, hm2⟩ := List.any_eq_true.mp hu
              simp only [Bool.and_eq_true, decide_eq_true_eq] at hm2
              exact ⟨a, d, hm1, hm2.1.1, hm2.1.2, hm2.2⟩
            · right
              unfold unpayable at hu
              obtain ⟨⟨a, d⟩, hm1, hm2⟩ := List.any_eq_true.mp hu
              simp only [Bool.and_eq_true, decide_eq_true_eq, Bool.not_eq_true'] at hm2
              exact ⟨a, d, hm1, hm2.1.1, hm2.1.2, hm2.2⟩
          · cases hcm
        | some w =>
          exfalso
          rw [hcm] at hr
          dsimp only at hr
          rw [if_neg (mult_fits hm ha.gas64)] at hr
          have hun : (gasUsed c t (execute c t base (prepare c t w1)) * t.price.effective base + (t.gas - gasUsed c t (execute c t base (prepare c t w1))) * t.price.effective base : Nat) =
              t.price.effective base * t.gas := by
            rw [← Nat.add_mul, Nat.add_sub_cancel' (gasUsed_le hm t _), Nat.mul_comm]
          rw [← hun] at b0
          have gives : ∀ w2 : World, w1.balance c.collector - ((gasUsed c t (execute c t base (prepare c t w1)) * t.price.effective base : Nat) : Int) ≤ w2.balance c.collector →
              ∃ w3, giveBack c w2 t.sender ((t.gas - gasUsed c t (execute c t base (prepare c t w1))) * t.price.message base) = some w3 := by
            intro w2 hw2
            unfold giveBack
            rw [if_neg]
            · exact ⟨_, rfl⟩
            · rw [message_effective]
              omega
          by_cases hok : (execute c t base (prepare c t w1)).status = .ok
          · have e : ((execute c t base (prepare c t w1)).status == .ok) = true := by rw [hok]; rfl
            rw [e, if_pos rfl] at hr
            obtain ⟨sd, rn⟩ := run_does h (reg := registered c t s.reg) h1.solvent c1 ha.gas64 e1 e2 e3 hne hok hcm (gasUsed c t (execute c t base (prepare c t w1)))
            have b1 := rn.collector (k1.idle hi) hE
            have pl := portion_le hsh (gasUsed c t (execute c t base (prepare c t w1)) * t.price.message base)
            rw [message_effective] at b1 pl
            obtain ⟨w3, hw3⟩ := gives (distribute c t base (gasUsed c t (execute c t base (prepare c t w1))) ⟨w, registered c t s.reg⟩).world (by omega)
            rw [hw3] at hr
            cases hr
          · have e : ((execute c t base (prepare c t w1)).status == .ok) = false := by
              cases hs : (execute c t base (prepare c t w1)).status
              · exact absurd hs hok
              all_goals rfl
            rw [e, if_neg Bool.false_ne_true] at hr
            obtain ⟨w3, hw3⟩ := gives w1 (by omega)
            rw [hw3] at hr
            cases hr

/-! ### Theorems: the developer -/

/-- The developer of the contract that a successful transaction calls gets their share of the fee. -/
theorem developer_is_paid {G E : Addr → Prop} {c : Chain} (h : c.Sound G E) (hm : c.fee.mult ≤ FeeMarket.one) (hsh : c.revenue.share ≤ 10 ^ 18) {s : St} {t : Tx} (hs : Solvent s.world)
    (hc : Clean s.world) (hne : t.sender ≠ c.collector) (hi : s.world.idle G c.collector) (hE : ¬ E c.collector) {used : Nat} (hr : (deliver c s t).2 = .done used true)
    {b dst : Addr} (hto : t.to = some b) (hon : c.revenue.enabled = true) (hst : c.static b = false) (hp : Revenue.payee s.reg b = some dst) (hbl : c.blocked dst = false)
    (hd1 : dst ≠ t.sender) (hd2 : dst ≠ c.collector) (hdi : s.world.idle G dst) (hdE : ¬ E dst) :
    s.world.balance dst + (Revenue.portion c.revenue.share (used * c.unit t) : Nat) ≤ (deliver c s t).1.world.balance dst := by
  rcases deliver_ends c s t with h' | ⟨base, w1, hb, ha, he⟩
  · rw [h'] at hr; cases hr
  · have h1 := ha.paid hs
    have c1 := ha.clean hc
    have hcs : c.collector ≠ t.sender := fun e => hne e.symm
    obtain ⟨e1, e2, e3, _⟩ := ha.sender hne
    obtain ⟨k1, b1⟩ := ha.kept hd1 hdi.1
    have kc := (ha.kept hcs hi.1).1
    have hbc := hs.nonneg c.collector
    have b0 : w1.balance c.collector = s.world.balance c.collector + (t.price.effective base * t.gas : Nat) := by
      rw [ha.world, balance_setNonce, balance_transfer, if_neg hcs, if_pos rfl]
      omega
    have hun : c.unit t = t.price.effective base := by unfold Chain.unit; rw [hb]; rfl
    rw [hr] at he
    generalize (deliver c s t).1 = s' at he ⊢
    cases he with
    | done r w hrr hok hcm hg _ =>
      subst hrr
      have q : Conserves w1 (prepare c t w1) := Conserves.same h1.solvent rfl rfl
      have hx0 := execute_does h (t := t) base (w := prepare c t w1) ha.gas64 q.solvent e1 e2 e3 prepare_warm (by rw [hok]; intro h; cases h) (by rw [hok]; intro h; cases h)
      have hk := commit_does hx0.conserves.solvent hcm
      have hu := gasUsed_le hm t (execute c t base (prepare c t w1))
      generalize execute c t base (prepare c t w1) = r at *
      have idle0 : ∀ x, w1.idle G x → (prepare c t w1).idle G x := fun x hx => (prepare_kept c t w1 x).idle hx
      have sui : ∀ x, x ≠ t.sender → w1.idle G x → r.world.suicided x = false := fun x hx hi' =>
        ((prepare_kept c t w1 x).trans (hx0.spared.kept x hx (idle0 x hi'))).suicided.trans (c1.suicided x)
      have d1 : w1.balance dst ≤ w.balance dst := by
        rw [hk.balance dst (sui dst hd1 (k1.idle hdi))]
        exact hx0.spared.balance dst hd1 (idle0 _ (k1.idle hdi)) hdE
      have d2 : w1.balance c.collector ≤ w.balance c.collector := by
        rw [hk.balance c.collector (sui _ hcs (kc.idle hi))]
        exact hx0.spared.balance _ hcs (idle0 _ (kc.idle hi)) hE
      have hreg : registered c t s.reg = s.reg := by
        unfold registered
        rw [hto]
        rfl
      have d3 : w.balance dst + (Revenue.portion c.revenue.share (gasUsed c t r * t.price.effective base) : Nat) ≤
          (distribute c t base (gasUsed c t r) ⟨w, registered c t s.reg⟩).world.balance dst := by
        have pl := portion_le hsh (gasUsed c t r * t.price.effective base)
        have le : gasUsed c t r * t.price.effective base ≤ t.price.effective base * t.gas := by
          rw [Nat.mul_comm]
          exact Nat.mul_le_mul_left _ hu
        unfold distribute
        rw [hto, hreg]
        dsimp only
        rw [message_effective]
        by_cases hz : Revenue.portion c.revenue.share (gasUsed c t r * t.price.effective base) = 0
        · rw [hz]
          have hpay := pay_pays c hk.conserves.solvent dst 0
          split
          · show w.balance dst + ((0 : Nat) : Int) ≤ w.balance dst
            omega
          · rw [hp]
            dsimp only
            have := hpay.balance dst hd2
            omega
        · rw [if_neg, hp]
          · dsimp only
            unfold pay
            rw [if_neg]
            · rw [balance_transfer, if_neg hd2, if_pos rfl]
              omega
            · intro hx
              rcases hx with hx | hx | hx
              · exact hz hx
              · rw [hbl] at hx; cases hx
              · omega
          · intro hx
            rcases hx with hx | hx | hx | hx
            · apply hz
              rw [hx]
              unfold Revenue.portion
              simp
            · rw [hon] at hx; cases hx
            · apply hz
              rw [hx]
              unfold Revenue.portion
              simp
            · rw [hst] at hx; cases hx
      rw [hun]
      have sd := (distribute_pays c t base (gasUsed c t r) (s := ⟨w, registered c t s.reg⟩) hk.conserves.solvent).conserves.solvent
      have d4 := (giveBack_pays sd hg).1.balance dst hd2
      omega

/-! ### Theorems: histories -/

/-- What happens to the chain: an Ethereum transaction, or anything else, with the state it leads to. -/
inductive Event where
  | tx (c : Chain) (t : Tx)
  | other (s : St)

/-- The state after an event and the transactions accepted in it. -/
def happen (s : St) : Event → St × List Tx
  | .tx c t => ((deliver c s t).1, if (deliver c s t).2 = .refused then [] else [t])
  | .other s' => (s', [])

def history (s : St) : List Event → St × List Tx
  | [] => (s, [])
  | e :: es => ((history (happen s e).1 es).1, (happen s e).2 ++ (history (happen s e).1 es).2)

/-- The assumptions: about precompiled contracts, and that the rest of the chain takes no nonce back. -/
def Event.Fair (G : Addr → Prop) (s : St) : Event → Prop
  | .tx c t => c.Sound G (fun _ => True) ∧ t.sender ≠ c.collector
  | .other s' => Solvent s'.world ∧ Clean s'.world ∧ ∀ x, s.world.idle G x → s'.world.idle G x ∧ s.world.nonce x ≤ s'.world.nonce x

def Fair (G : Addr → Prop) (s : St) : List Event → Prop
  | [] => True
  | e :: es => e.Fair G s ∧ Fair G (happen s e).1 es

theorem happen_keeps {G : Addr → Prop} {s : St} {e : Event} (hs : Solvent s.world) (hc : Clean s.world) (hf : e.Fair G s) :
    Solvent (happen s e).1.world ∧ Clean (happen s e).1.world ∧
      (∀ x, s.world.idle G x → (happen s e).1.world.idle G x ∧ s.world.nonce x ≤ (happen s e).1.world.nonce x) ∧
      ∀ t ∈ (happen s e).2, s.world.nonce t.sender = t.nonce ∧ (happen s e).1.world.idle G t.sender ∧ (happen s e).1.world.nonce t.sender = t.nonce + 1 := by
  cases e with
  | other s' => exact ⟨hf.1, hf.2.1, hf.2.2, fun t ht => (nomatch ht)⟩
  | tx c t =>
    obtain ⟨hso, hne⟩ := hf
    have hcv := tx_conserves hso.pay hso.conserve t hs hc
    have hn : (deliver c s t).2 ≠ .refused → s.world.nonce t.sender = t.nonce ∧ (deliver c s t).1.world.nonce t.sender = t.nonce + 1 ∧ (deliver c s t).1.world.idle G t.sender :=
      fun h => tx_nonce hso hs hc hne h
    refine ⟨hcv.1, hcv.2.1, ?_, ?_⟩
    · intro x hx
      by_cases hxs : x = t.sender
      · subst hxs
        by_cases hr : (deliver c s t).2 = .refused
        · have e := refused_tx_changes_nothing hr
          show (deliver c s t).1.world.idle G _ ∧ _ ≤ (deliver c s t).1.world.nonce _
          rw [e]
          exact ⟨hx, Nat.le_refl _⟩
        · obtain ⟨a, b, d⟩ := hn hr
          refine ⟨d, ?_⟩
          show _ ≤ (deliver c s t).1.world.nonce _
          rw [a, b]
          exact Nat.le_succ _
      · have := (tx_spares_others hso hs hc hne hxs hx).1
        exact ⟨this.idle hx, Nat.le_of_eq this.nonce.symm⟩
    · intro t' ht'
      show _ ∧ (deliver c s t).1.world.idle G _ ∧ (deliver c s t).1.world.nonce _ = _
      have ht' : t' ∈ (if (deliver c s t).2 = .refused then [] else [t]) := ht'
      split at ht'
      · cases ht'
      · rename_i hr
        have : t' = t := by simpa using ht'
        rw [this]
        obtain ⟨a, b, d⟩ := hn hr
        exact ⟨a, d, b⟩

theorem history_nonces {G : Addr → Prop} (es : List Event) {s : St} (hs : Solvent s.world) (hc : Clean s.world) (hf : Fair G s es) :
    ∀ t ∈ (history s es).2, s.world.idle G t.sender → s.world.nonce t.sender ≤ t.nonce := by
  induction es generalizing s with
  | nil => intro t ht; cases ht
  | cons e es ih =>
    obtain ⟨hs', hc', hk, hn⟩ := happen_keeps hs hc hf.1
    intro t ht hi
    rcases List.mem_append.mp ht with h | h
    · exact Nat.le_of_eq (hn t h).1
    · exact Nat.le_trans (hk _ hi).2 (ih hs' hc' hf.2 t h (hk _ hi).1)

/-- In any history, of two accepted transactions of a sender the later one has the larger nonce. -/
theorem tx_nonces_in_order {G : Addr → Prop} (es : List Event) {s : St} (hs : Solvent s.world) (hc : Clean s.world) (hf : Fair G s es) :
    (history s es).2.Pairwise (fun a b => a.sender = b.sender → a.nonce < b.nonce) := by
  induction es generalizing s with
  | nil => exact List.Pairwise.nil
  | cons e es ih =>
    obtain ⟨hs', hc', hk, hn⟩ := happen_keeps hs hc hf.1
    refine List.pairwise_append.mpr ⟨?_, ih hs' hc' hf.2, ?_⟩
    · cases e with
      | other _ => exact List.Pairwise.nil
      | tx c t =>
        show List.Pairwise _ (if (deliver c s t).2 = .refused then [] else [t])
        split
        · exact List.Pairwise.nil
        · exact List.pairwise_singleton _ _
    · intro a ha b hb hab
      obtain ⟨_, h2, h3⟩ := hn a ha
      have := history_nonces es hs' hc' hf.2 b hb (hab ▸ h2)
      rw [← hab, h3] at this
      exact this

/-- No transaction is accepted twice. -/
theorem tx_no_replay {G : Addr → Prop} (es : List Event) {s : St} (hs : Solvent s.world) (hc : Clean s.world) (hf : Fair G s es) : (history s es).2.Nodup := by
  refine List.Pairwise.imp ?_ (tx_nonces_in_order es hs hc hf)
  intro a b h e
  subst e
  exact Nat.lt_irrefl _ (h rfl)

/-- In a history of transactions alone, the coins stay the same. -/
theorem history_conserves (es : List (Chain × Tx)) {s : St} (hs : Solvent s.world) (hc : Clean s.world) (h : ∀ e ∈ es, PrecompilesPay e.1.vm ∧ PrecompilesConserve e.1.vm) :
    let s' := (history s (es.map (fun e => .tx e.1 e.2))).1
    Solvent s'.world ∧ Clean s'.world ∧ s'.world.total + s'.world.burnt = s.world.total + s.world.burnt := by
  induction es generalizing s with
  | nil => exact ⟨hs, hc, rfl⟩
  | cons e es ih =>
    obtain ⟨h1, h2⟩ := h e List.mem_cons_self
    have a := tx_conserves h1 h2 e.2 hs hc
    have b := ih a.1 a.2.1 (fun e' he' => h e' (List.mem_cons_of_mem _ he'))
    exact ⟨b.1, b.2.1, b.2.2.trans a.2.2⟩

/-! ### Examples -/

/-- A chain with a base fee of 1, a multiplier of one half and a developer share of 10%. -/
def demoChain : Chain where
  fee := { base := some 1, minPrice := 0, mult := 500000000000000000, limit := 30000000, mayCreate := true, mayCall := true }
  vm := demoEnv
  collector := 0xfc#160
  blocked := fun a => decide (a = 0xfc#160)
  warm := fun _ => false
  static := fun _ => false
  unregistered := fun _ => false
  revenue := { enabled := true, share := 100000000000000000 }

/-- The splitter contract of `ValueProps`, whose developer is 0x22. The sender 0x11 has a million coins. -/
def demoSt : St where
  world := { demoWorld [] with accts := [(0x11#160, { nonce := 5, balance := 1000000 }), (0x22#160, { nonce := 1, balance := 5 }), (0xaa#160, { nonce := 1, balance := 10, code := splitter }),
    (0xfc#160, { balance := 50 })] }
  reg := Revenue.postCreation demoChain.revenue {} 0xaa#160 0x22#160

def demoTx : Tx := { sender := 0x11#160, nonce := 5, gas := 90000, price := .dynamic 1 3, value := 7, to := some 0xaa#160, data := [1, 0], access := [] }

theorem mem_of_acct {w : World} {a : Addr} {c : Acct} (h : w.acct a = some c) : (a, c) ∈ w.accts := KV.mem_of_get h

example : Solvent demoSt.world := by
  refine ⟨by unfold KV.Distinct; decide +kernel, ?_⟩
  intro a
  unfold World.balance
  cases h : demoSt.world.acct a with
  | none => exact Int.le_refl 0
  | some c =>
    have := mem_of_acct h
    simp only [demoSt, List.mem_cons, List.not_mem_nil, or_false, Prod.mk.injEq] at this
    rcases this with ⟨_, rfl⟩ | ⟨_, rfl⟩ | ⟨_, rfl⟩ | ⟨_, rfl⟩ <;> decide
example : Clean demoSt.world := by
  refine ⟨?_, fun _ _ _ => rfl⟩
  intro a c h
  have := mem_of_acct h
  simp only [demoSt, List.mem_cons, List.not_mem_nil, or_false, Prod.mk.injEq] at this
  rcases this with ⟨_, rfl⟩ | ⟨_, rfl⟩ | ⟨_, rfl⟩ | ⟨_, rfl⟩ <;> exact ⟨rfl, rfl⟩
/-- The addresses of new contracts in the example are hashes of nothing, so no account can be protected by its address alone. -/
example : demoChain.Sound (fun _ => False) (fun _ => False) :=
  ⟨(fun _ _ h => nomatch h), (fun _ _ h => nomatch h), (fun _ _ h => nomatch h), (fun _ _ h => h), (fun _ _ _ h => h)⟩
/-- With addresses of new contracts that are not the collector, the collector is protected. -/
def farEnv : Env := { demoEnv with createAddr := fun a n => 0xc000#160 ||| (demoEnv.createAddr a n), create2Addr := fun a s k => 0xc000#160 ||| (demoEnv.create2Addr a s k) }
example : ({ demoChain with vm := farEnv } : Chain).Sound (fun a => a = 0xfc#160) (fun _ => False) := by
  have key : ∀ y : Addr, ¬ (0xc000#160 ||| y) = 0xfc#160 := by
    intro y h
    have := congrArg (fun v : Addr => v.getLsbD 15) h
    simp only [BitVec.getLsbD_or] at this
    have h1 : (0xc000#160 : Addr).getLsbD 15 = true := by decide
    have h2 : (0xfc#160 : Addr).getLsbD 15 = false := by decide
    rw [h1, h2] at this
    cases this
  exact ⟨(fun _ _ h => nomatch h), (fun _ _ h => nomatch h), (fun _ _ h => nomatch h), (fun _ _ => key _), (fun _ _ _ => key _)⟩

/-- A successful transaction: the gas used is paid at a price of 2; the developer 0x22 gets 10% of it and 3 coins from the contract, which is destroyed. -/
example : let r := deliver demoChain demoSt demoTx
    r.2 = .done 62943 true ∧ r.1.world.balance 0x11#160 = 1000000 - 7 - 125886 ∧ r.1.world.balance 0x22#160 = 5 + 3 + 12588 ∧ r.1.world.balance 0xfc#160 = 50 + 125886 - 12588 ∧
    r.1.world.balance 0x33#160 = 14 ∧ r.1.world.exist 0xaa#160 = false ∧ r.1.world.nonce 0x11#160 = 6 := by decide +kernel
/-- The same transaction again is refused; one with too little gas for the contract fails; one with too little gas for its data is an error. -/
example : (deliver demoChain (deliver demoChain demoSt demoTx).1 demoTx).2 = .refused := by decide +kernel
example : let r := deliver demoChain demoSt { demoTx with gas := 21040 }
    r.2 = .done 21040 false ∧ r.1.world.balance 0x11#160 = 1000000 - 42080 ∧ r.1.world.balance 0xfc#160 = 50 + 42080 := by decide +kernel
example : let r := deliver demoChain demoSt { demoTx with gas := 21010 }
    r.2 = .error ∧ r.1.world.balance 0x11#160 = 1000000 - 42020 := by decide +kernel
example : ((history demoSt [.tx demoChain demoTx, .tx demoChain demoTx, .tx demoChain { demoTx with nonce := 6, to := none, data := [] }]).2.map (fun t => t.nonce)) = [5, 6] := by decide +kernel

/-- A commit that fails: somebody sent one coin to the address at which the contract is going to be created; its constructor destroys it at once, which is legal, but
the transaction ends in an error and costs the whole gas limit. Without that coin it succeeds. -/
def trapTx : Tx := { demoTx with to := none, data := [0x60, 0x33, 0xff] }
example : (deliver demoChain demoSt trapTx).2 = .done 85651 true := by decide +kernel
theorem commit_can_fail : let s := { demoSt with world := demoSt.world.addBalance (demoEnv.createAddr 0x11#160 5) 1 }
    (deliver demoChain s trapTx).2 = .error ∧ (deliver demoChain s trapTx).1.world.balance 0x11#160 = 1000000 - 180000 := by decide +kernel

end VM
