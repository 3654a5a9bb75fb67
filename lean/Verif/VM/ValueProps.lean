import Verif.VM.IsolationProps
/-!
# Executions neither create nor lose coins (C70), and spend only what is theirs (C71)

C70: whatever code runs, the sum of all balances stays the same, up to what contracts destroy by naming themselves as heirs; and no balance becomes negative.

C71: an account without code that has been used (a wallet) and did not send the transaction keeps its nonce, code and storage, and its balance does not fall.
-/
namespace VM

/-! ### Specification -/

/-- The sum of all balances. -/
def World.total (w : World) : Int := (w.accts.map (fun e => e.2.balance)).sum

/-- One entry for each account, and no debts. -/
structure Solvent (w : World) : Prop where
  distinct : KV.Distinct w.accts
  nonneg : ∀ a, 0 ≤ w.balance a

/-- Nothing is created and nothing is lost, apart from what was counted as burnt. -/
structure Conserves (w w' : World) : Prop where
  solvent : Solvent w'
  total : w'.total + w'.burnt = w.total + w.burnt

/-- Precompiled contracts move coins only (they run on the bank module). -/
def PrecompilesConserve (env : Env) : Prop :=
  ∀ a p, env.precompile a = some p → ∀ c v i g ro w, Solvent w → (p c v i g ro w).ok = true → Conserves w (p c v i g ro w).world

/-- A wallet: no code, and a nonce that shows it was used. -/
def World.wallet (w : World) (x : Addr) : Prop := w.code x = [] ∧ w.nonce x ≠ 0

/-- The wallet `x` is untouched except that it may have received coins. -/
structure Untouched (x : Addr) (w w' : World) : Prop where
  balance : w.balance x ≤ w'.balance x
  nonce : w'.nonce x = w.nonce x
  code : w'.code x = w.code x
  state : ∀ k, w'.state x k = w.state x k
  suicided : w'.suicided x = w.suicided x

/-- Precompiled contracts touch only their caller and the sender of the transaction. -/
def PrecompilesHonest (env : Env) : Prop :=
  ∀ a p, env.precompile a = some p → ∀ c v i g ro w x, x ≠ c → x ≠ env.origin → w.wallet x → (p c v i g ro w).ok = true → Untouched x w (p c v i g ro w).world

/-! ### Proof: conservation -/

theorem balance_modify (w : World) (a b : Addr) (f : Acct → Acct) :
    (w.modify a f).balance b = if b = a then (f ((w.acct a).getD {})).balance else w.balance b := by
  unfold World.balance
  rw [acct_modify]
  split <;> rfl

theorem balance_getD (w : World) (a : Addr) : ((w.acct a).getD {}).balance = w.balance a := by
  unfold World.balance
  cases w.acct a <;> rfl

theorem perm_sum {l l' : List Int} (h : l.Perm l') : l.sum = l'.sum := by
  induction h with
  | nil => rfl
  | cons x _ ih => rw [List.sum_cons, List.sum_cons, ih]
  | swap x y l => simp only [List.sum_cons]; omega
  | trans _ _ h1 h2 => exact h1.trans h2

theorem total_modify {w : World} (h : KV.Distinct w.accts) (a : Addr) (f : Acct → Acct) :
    (w.modify a f).total = w.total - w.balance a + (f ((w.acct a).getD {})).balance := by
  have key : w.total = w.balance a + ((KV.del w.accts a).map (fun e => e.2.balance)).sum := by
    unfold World.total World.balance World.acct
    cases hg : KV.get w.accts a with
    | none =>
      rw [KV.del_of_get_none hg]
      simp
    | some c =>
      rw [perm_sum ((KV.perm_of_get h hg).map (fun e => e.2.balance))]
      rfl
  rw [key]
  show (f ((w.acct a).getD {})).balance + ((KV.del w.accts a).map (fun e => e.2.balance)).sum = _
  omega

theorem distinct_modify {w : World} (h : KV.Distinct w.accts) (a : Addr) (f : Acct → Acct) : KV.Distinct (w.modify a f).accts := KV.distinct_set h _ _

/-- A change that leaves the balance. -/
theorem Conserves.modify {w : World} (h : Solvent w) {a : Addr} {f : Acct → Acct} (hf : ∀ c, (f c).balance = c.balance) : Conserves w (w.modify a f) := by
  refine ⟨⟨distinct_modify h.distinct a f, ?_⟩, ?_⟩
  · intro b
    rw [balance_modify]
    split
    · rw [hf, balance_getD]; exact h.nonneg a
    · exact h.nonneg b
  · rw [total_modify h.distinct, hf, balance_getD]
    show w.total - w.balance a + w.balance a + w.burnt = _
    omega

theorem Conserves.refl {w : World} (h : Solvent w) : Conserves w w := ⟨h, rfl⟩
theorem Conserves.trans {w1 w2 w3 : World} (h1 : Conserves w1 w2) (h2 : Conserves w2 w3) : Conserves w1 w3 := ⟨h2.solvent, h2.total.trans h1.total⟩

theorem Conserves.same {w w' : World} (h : Solvent w) (h1 : w'.accts = w.accts) (h2 : w'.burnt = w.burnt) : Conserves w w' := by
  refine ⟨⟨by rw [h1]; exact h.distinct, ?_⟩, ?_⟩
  · intro a
    unfold World.balance World.acct
    rw [h1]
    exact h.nonneg a
  · unfold World.total
    rw [h1, h2]

theorem balance_transfer (w : World) (a b x : Addr) (v : Int) :
    (w.transfer a b v).balance x = w.balance x - (if x = a then v else 0) + (if x = b then v else 0) := by
  unfold World.transfer World.addBalance World.subBalance
  rw [balance_modify]
  dsimp only
  rw [balance_getD, balance_modify]
  dsimp only
  rw [balance_getD]
  by_cases h1 : x = b
  · subst h1
    rw [if_pos rfl, if_pos rfl]
    split
    · rename_i e; rw [e]
    · omega
  · rw [if_neg h1, if_neg h1, balance_modify]
    dsimp only
    rw [balance_getD]
    split
    · rename_i e; rw [e]; omega
    · omega

theorem Conserves.transfer {w : World} (h : Solvent w) {a b : Addr} {v : Int} (hv : 0 ≤ v) (hb : v ≤ w.balance a) : Conserves w (w.transfer a b v) := by
  refine ⟨⟨distinct_modify (distinct_modify h.distinct _ _) _ _, ?_⟩, ?_⟩
  · intro x
    rw [balance_transfer]
    have := h.nonneg x
    by_cases e : x = a
    · subst e
      rw [if_pos rfl]
      split <;> omega
    · rw [if_neg e]
      split <;> omega
  · show (w.transfer a b v).total + w.burnt = _
    unfold World.transfer World.addBalance World.subBalance
    rw [total_modify (distinct_modify h.distinct _ _)]
    dsimp only
    rw [balance_getD, total_modify h.distinct]
    dsimp only
    rw [balance_getD]
    omega

theorem Conserves.createAccount {w : World} (h : Solvent w) (a : Addr) : Conserves w (w.createAccount a) := Conserves.modify h (fun _ => rfl)
theorem Conserves.setNonce {w : World} (h : Solvent w) (a : Addr) (n : Nat) : Conserves w (w.setNonce a n) := Conserves.modify h (fun _ => rfl)
theorem Conserves.setCode {w : World} (h : Solvent w) (a : Addr) (c : List UInt8) : Conserves w (w.setCode a c) := Conserves.modify h (fun _ => rfl)
theorem Conserves.setState {w : World} (h : Solvent w) (a : Addr) (k v : Word) : Conserves w (w.setState a k v) := Conserves.modify h (fun _ => rfl)

theorem Conserves.addZero {w : World} (h : Solvent w) (a : Addr) : Conserves w (w.addBalance a 0) := Conserves.modify h (fun _ => Int.add_zero _)

theorem balance_createAccount (w : World) (a x : Addr) : (w.createAccount a).balance x = w.balance x := by
  unfold World.createAccount
  rw [balance_modify]
  split
  · rename_i e
    rw [e]
    exact balance_getD w a
  · rfl

theorem balance_setNonce (w : World) (a x : Addr) (n : Nat) : (w.setNonce a n).balance x = w.balance x := by
  unfold World.setNonce
  rw [balance_modify]
  split
  · rename_i e
    rw [e]
    exact balance_getD w a
  · rfl

theorem Conserves.enter {w : World} (h : Solvent w) {a b : Addr} {v : Int} (hv : 0 ≤ v) (hb : v ≠ 0 → v ≤ w.balance a) : Conserves w (enter w a b v) := by
  have hb' : v ≤ w.balance a := by
    by_cases e : v = 0
    · rw [e]; exact h.nonneg a
    · exact hb e
  unfold VM.enter
  split
  · exact Conserves.transfer h hv hb'
  · have h1 := Conserves.createAccount h b
    exact h1.trans (Conserves.transfer h1.solvent hv (by rw [balance_createAccount]; exact hb'))

theorem Conserves.created {w : World} (h : Solvent w) {a b : Addr} {v : Int} (hv : 0 ≤ v) (hb : v ≤ w.balance a) : Conserves w (created w a b v) := by
  have h1 := Conserves.createAccount h b
  have h2 := Conserves.setNonce h1.solvent b 1
  exact h1.trans (h2.trans (Conserves.transfer h2.solvent hv (by rw [balance_setNonce, balance_createAccount]; exact hb)))

/-- `suicide` as a change of one account, if there is one. -/
theorem suicide_eq (w : World) (a : Addr) : w.suicide a = if w.exist a then w.modify a (fun c => { c with balance := 0, suicided := true }) else w := by
  unfold World.suicide World.exist World.modify
  cases w.acct a <;> rfl

theorem acct_none_balance {w : World} {a : Addr} (h : w.exist a = false) : w.balance a = 0 := by
  unfold World.exist at h
  unfold World.balance
  cases ha : w.acct a with
  | none => rfl
  | some c => rw [ha] at h; cases h

theorem suicide_total {w : World} (h : KV.Distinct w.accts) (a : Addr) : (w.suicide a).total = w.total - w.balance a := by
  rw [suicide_eq]
  split
  · rw [total_modify h]
    dsimp only
    omega
  · rename_i he
    rw [acct_none_balance (by simpa using he)]
    omega

theorem suicide_balance (w : World) (a x : Addr) : (w.suicide a).balance x = if x = a then 0 else w.balance x := by
  rw [suicide_eq]
  split
  · rw [balance_modify]
  · rename_i he
    split
    · rename_i e
      rw [e]
      exact acct_none_balance (by simpa using he)
    · rfl

theorem suicide_distinct {w : World} (h : KV.Distinct w.accts) (a : Addr) : KV.Distinct (w.suicide a).accts := by
  rw [suicide_eq]
  split
  · exact distinct_modify h _ _
  · exact h

theorem suicide_burnt (w : World) (a : Addr) : (w.suicide a).burnt = w.burnt := by
  rw [suicide_eq]
  split <;> rfl

theorem balance_addBalance (w : World) (a x : Addr) (v : Int) : (w.addBalance a v).balance x = w.balance x + (if x = a then v else 0) := by
  unfold World.addBalance
  rw [balance_modify]
  dsimp only
  rw [balance_getD]
  split
  · rename_i e; rw [e]
  · omega

theorem total_addBalance {w : World} (h : KV.Distinct w.accts) (a : Addr) (v : Int) : (w.addBalance a v).total = w.total + v := by
  unfold World.addBalance
  rw [total_modify h]
  dsimp only
  rw [balance_getD]
  omega

theorem selfdestruct_balance (w : World) (a b x : Addr) :
    (w.selfdestruct a b).balance x = if x = a then 0 else w.balance x + (if x = b then w.balance a else 0) := by
  unfold World.selfdestruct
  dsimp only
  have : ∀ (u : World) (n : Int), World.balance { u with burnt := n } x = u.balance x := fun _ _ => rfl
  split
  · rw [this, suicide_balance, balance_addBalance]
  · rw [suicide_balance, balance_addBalance]

theorem Conserves.selfdestruct {w : World} (h : Solvent w) (a b : Addr) : Conserves w (w.selfdestruct a b) := by
  refine ⟨⟨?_, ?_⟩, ?_⟩
  · unfold World.selfdestruct
    dsimp only
    split <;> exact suicide_distinct (distinct_modify h.distinct _ _) _
  · intro x
    rw [selfdestruct_balance]
    have := h.nonneg x
    have := h.nonneg a
    split
    · exact Int.le_refl 0
    · split <;> omega
  · have hd : KV.Distinct (w.addBalance b (w.balance a)).accts := distinct_modify h.distinct _ _
    have e1 := suicide_total hd a
    rw [total_addBalance h.distinct, balance_addBalance] at e1
    have e2 : ((w.addBalance b (w.balance a)).suicide a).burnt = w.burnt := suicide_burnt _ _
    unfold World.selfdestruct
    dsimp only
    by_cases e : b = a
    · rw [if_pos e]
      rw [if_pos e.symm] at e1
      show ((w.addBalance b (w.balance a)).suicide a).total + (((w.addBalance b (w.balance a)).suicide a).burnt + w.balance a) = _
      omega
    · rw [if_neg e]
      rw [if_neg (fun h => e h.symm)] at e1
      omega

theorem value_rule {env : Env} (hC : PrecompilesConserve env) : Rule env (fun _ w => Solvent w) (fun _ _ w w' => Solvent w → Conserves w w') False where
  refl _ _ w := Conserves.refl
  trans h1 h2 h := (h1 h).trans (h2 (h1 h).solvent)
  pre h hr := (hr h).solvent
  warms _ hw _ h := Conserves.same h hw.accts hw.burnt
  sstore _ hd h := by
    obtain ⟨_, hw, _⟩ := sstoreDyn_ok hd
    have h1 := Conserves.same h hw.accts hw.burnt
    exact h1.trans (Conserves.setState h1.solvent _ _ _)
  log _ _ h := Conserves.same h rfl rfl
  selfdestruct b _ h := Conserves.selfdestruct h _ b
  nopanic h := h.elim
  call h _ _ hv hb := ⟨(Conserves.enter h hv hb).solvent, fun _ _ h3 _ => (Conserves.enter h hv hb).trans (h3 (Conserves.enter h hv hb).solvent)⟩
  pcall h _ _ hv hb hp hok _ := (Conserves.enter h hv hb).trans (hC _ _ hp _ _ _ _ _ _ (Conserves.enter h hv hb).solvent hok)
  pother h _ hp hok _ := hC _ _ hp _ _ _ _ _ _ h hok
  static h _ := ⟨(Conserves.addZero h _).solvent, fun _ _ h3 _ => (Conserves.addZero h _).trans (h3 (Conserves.addZero h _).solvent)⟩
  pstatic h _ hp hok _ := (Conserves.addZero h _).trans (hC _ _ hp _ _ _ _ _ _ (Conserves.addZero h _).solvent hok)
  create0 b _ _ h := (Conserves.setNonce h _ _).trans (Conserves.same (Conserves.setNonce h _ _).solvent rfl rfl)
  create _ h _ hv hb _ _ := ⟨(Conserves.created h hv hb).solvent, fun _ _ h3 _ =>
    ((Conserves.created h hv hb).trans (h3 (Conserves.created h hv hb).solvent)).trans (Conserves.setCode (h3 (Conserves.created h hv hb).solvent).solvent _ _)⟩

/-! ### Theorems: conservation -/

/-- A call of any code keeps the sum of all balances and what was burnt, and makes no balance negative. -/
theorem call_conserves {env : Env} (hP : PrecompilesPay env) (hC : PrecompilesConserve env) {fuel gas : Nat} (hg : gas < 2 ^ 64) (hf : gas < fuel) (depth : Nat) {ro : Bool}
    {caller addr : Addr} (input : List UInt8) {value : Int} {w : World} (hv : 0 ≤ value) (hro : ro = true → value = 0) (hs : Solvent w) (ha : w.warmA addr = true) :
    let r := evmCall env (run env fuel) depth ro caller addr input gas value w
    r.status ≠ .panic → Solvent r.world ∧ r.world.total + r.world.burnt = w.total + w.burnt := by
  intro r hr
  have h := evmCall_obeys (run_obeys hP (value_rule hC) fuel) (value_rule hC) (depth := depth) (a := caller) (input := input) hg hs ha hro hv
  have := h.1 hr (call_terminates hP hg hf depth ro caller addr input value w).1 hs
  exact ⟨this.solvent, this.total⟩

theorem create_conserves {env : Env} (hP : PrecompilesPay env) (hC : PrecompilesConserve env) {fuel gas : Nat} (hg : gas < 2 ^ 64) (hf : gas < fuel) (depth : Nat)
    {caller addr : Addr} (code : List UInt8) {value : Int} {w : World} (hv : 0 ≤ value) (hs : Solvent w) :
    let r := evmCreate env (run env fuel) depth false caller addr code gas value w
    r.status ≠ .panic → Solvent r.world ∧ r.world.total + r.world.burnt = w.total + w.burnt := by
  intro r hr
  have h := evmCreate_obeys (run_obeys hP (value_rule hC) fuel) (value_rule hC) (depth := depth) (a := caller) (b := addr) (code := code) trivial hg hs hv
  have := h.1 hr (create_terminates hP hg hf depth false caller addr code value w).1 hs
  exact ⟨this.solvent, this.total⟩

/-! ### Proof: wallets -/

theorem Untouched.refl (x : Addr) (w : World) : Untouched x w w := ⟨Int.le_refl _, rfl, rfl, fun _ => rfl, rfl⟩
theorem Untouched.trans {x : Addr} {w1 w2 w3 : World} (h1 : Untouched x w1 w2) (h2 : Untouched x w2 w3) : Untouched x w1 w3 :=
  ⟨Int.le_trans h1.balance h2.balance, h2.nonce.trans h1.nonce, h2.code.trans h1.code, fun k => (h2.state k).trans (h1.state k), h2.suicided.trans h1.suicided⟩
theorem Untouched.wallet {x : Addr} {w w' : World} (h : Untouched x w w') (hx : w.wallet x) : w'.wallet x := ⟨h.code.trans hx.1, by rw [h.nonce]; exact hx.2⟩

theorem wallet_exists {w : World} {x : Addr} (h : w.wallet x) : ∃ c, w.acct x = some c := by
  cases ha : w.acct x with
  | some c => exact ⟨c, rfl⟩
  | none =>
    exfalso
    apply h.2
    unfold World.nonce
    rw [ha]
    rfl

/-- Same account, same storage. -/
theorem Untouched.of_acct {x : Addr} {w w' : World} (h : w'.acct x = w.acct x) (hs : w'.store = w.store) : Untouched x w w' := by
  refine ⟨?_, ?_, ?_, ?_, ?_⟩
  · unfold World.balance; rw [h]; exact Int.le_refl _
  · unfold World.nonce; rw [h]
  · unfold World.code; rw [h]
  · intro k; unfold World.state; rw [h, hs]
  · unfold World.suicided; rw [h]

theorem Untouched.modify_other {x a : Addr} {w : World} {f : Acct → Acct} (h : x ≠ a) : Untouched x w (w.modify a f) :=
  Untouched.of_acct (by rw [acct_modify, if_neg h]) rfl

theorem Untouched.addBalance {x : Addr} {w : World} (hx : w.wallet x) (a : Addr) {v : Int} (hv : 0 ≤ v) : Untouched x w (w.addBalance a v) := by
  by_cases e : x = a
  · subst e
    obtain ⟨c, hc⟩ := wallet_exists hx
    have h : (w.addBalance x v).acct x = some { c with balance := c.balance + v } := by
      unfold World.addBalance
      rw [acct_modify, if_pos rfl, hc]
      rfl
    refine ⟨?_, ?_, ?_, ?_, ?_⟩
    · unfold World.balance; rw [h, hc]; show c.balance ≤ c.balance + v; omega
    · unfold World.nonce; rw [h, hc]; rfl
    · unfold World.code; rw [h, hc]; rfl
    · intro k; unfold World.state; rw [h, hc]; rfl
    · unfold World.suicided; rw [h, hc]; rfl
  · exact Untouched.modify_other e

theorem Untouched.transfer {x a : Addr} {w : World} (hx : w.wallet x) (h : x ≠ a) (b : Addr) {v : Int} (hv : 0 ≤ v) : Untouched x w (w.transfer a b v) := by
  have h1 : Untouched x w (w.subBalance a v) := Untouched.modify_other h
  exact h1.trans (Untouched.addBalance (h1.wallet hx) b hv)

theorem Untouched.enter {x a : Addr} {w : World} (hx : w.wallet x) (h : x ≠ a) (b : Addr) {v : Int} (hv : 0 ≤ v) : Untouched x w (enter w a b v) := by
  unfold VM.enter
  split
  · exact Untouched.transfer hx h b hv
  · rename_i hb
    have hne : x ≠ b := by
      intro e
      obtain ⟨c, hc⟩ := wallet_exists hx
      apply hb
      unfold World.exist
      rw [← e, hc]
      rfl
    have h1 : Untouched x w (w.createAccount b) := Untouched.modify_other hne
    exact h1.trans (Untouched.transfer (h1.wallet hx) h b hv)

theorem Untouched.selfdestruct {x a : Addr} {w : World} (hx : w.wallet x) (h : x ≠ a) (b : Addr) (hb : 0 ≤ w.balance a) : Untouched x w (w.selfdestruct a b) := by
  have h1 := Untouched.addBalance hx b hb
  have h2 : Untouched x (w.addBalance b (w.balance a)) ((w.addBalance b (w.balance a)).suicide a) := by
    rw [suicide_eq]
    split
    · exact Untouched.modify_other h
    · exact Untouched.refl _ _
  refine h1.trans (h2.trans ?_)
  unfold World.selfdestruct
  dsimp only
  split
  · exact Untouched.of_acct rfl rfl
  · exact Untouched.refl _ _

theorem Untouched.warms {x : Addr} {w w' : World} (h : Warms w w') : Untouched x w w' := Untouched.of_acct (h.acct x) h.store

/-- Wallets other than the sender and the running contract are untouched. -/
def WalletRel (origin self : Addr) (w w' : World) : Prop := Conserves w w' ∧ ∀ x, x ≠ self → x ≠ origin → w.wallet x → Untouched x w w'

theorem wallet_rule {env : Env} (hC : PrecompilesConserve env) (hH : PrecompilesHonest env) :
    Rule env (fun _ w => Solvent w) (fun a _ w w' => Solvent w → WalletRel env.origin a w w') False where
  refl _ _ w h := ⟨Conserves.refl h, fun x _ _ _ => Untouched.refl x w⟩
  trans h1 h2 h := ⟨(h1 h).1.trans (h2 (h1 h).1.solvent).1, fun x ha ho hx =>
    ((h1 h).2 x ha ho hx).trans ((h2 (h1 h).1.solvent).2 x ha ho (((h1 h).2 x ha ho hx).wallet hx))⟩
  pre h hr := (hr h).1.solvent
  warms _ hw _ h := ⟨Conserves.same h hw.accts hw.burnt, fun _ _ _ _ => Untouched.warms hw⟩
  sstore h hd _ := ⟨(value_rule hC).sstore h hd h, fun x ha _ hx => by
    obtain ⟨_, hw, _⟩ := sstoreDyn_ok hd
    exact (Untouched.warms hw).trans (Untouched.modify_other ha)⟩
  log _ _ h := ⟨Conserves.same h rfl rfl, fun _ _ _ _ => Untouched.of_acct rfl rfl⟩
  selfdestruct {a w} b _ h := ⟨Conserves.selfdestruct h _ b, fun _ ha _ hx => Untouched.selfdestruct hx ha b (h.nonneg a)⟩
  nopanic h := h.elim
  call {a b ro w v} h _ _ hv hb := ⟨(Conserves.enter h hv hb).solvent, fun w3 he h3 _ => by
    have hc := Conserves.enter (b := b) h hv hb
    obtain ⟨h4, h5⟩ := h3 hc.solvent
    refine ⟨hc.trans h4, fun x ha ho hx => ?_⟩
    have hu := Untouched.enter hx ha b hv
    by_cases e : x = b
    · subst e
      rw [he (hu.wallet hx).1]
      exact hu
    · exact hu.trans (h5 x e ho (hu.wallet hx))⟩
  pcall {a b ro w v p i g} h _ _ hv hb hp hok _ := by
    have hc := Conserves.enter (b := b) h hv hb
    refine ⟨hc.trans (hC _ _ hp _ _ _ _ _ _ hc.solvent hok), fun x ha ho hx => ?_⟩
    have hu := Untouched.enter hx ha b hv
    exact hu.trans (hH _ _ hp _ _ _ _ _ _ x ha ho (hu.wallet hx) hok)
  pother h _ hp hok _ := ⟨hC _ _ hp _ _ _ _ _ _ h hok, fun x ha ho hx => hH _ _ hp _ _ _ _ _ _ x ha ho hx hok⟩
  static {a b ro w} h _ := ⟨(Conserves.addZero h _).solvent, fun w3 he h3 _ => by
    have hc := Conserves.addZero h b
    obtain ⟨h4, h5⟩ := h3 hc.solvent
    refine ⟨hc.trans h4, fun x ha ho hx => ?_⟩
    have hu := Untouched.addBalance hx b (Int.le_refl 0)
    by_cases e : x = b
    · subst e
      rw [he (hu.wallet hx).1]
      exact hu
    · exact hu.trans (h5 x e ho (hu.wallet hx))⟩
  pstatic {a b ro w p i g} h _ hp hok _ := by
    have hc := Conserves.addZero h b
    refine ⟨hc.trans (hC _ _ hp _ _ _ _ _ _ hc.solvent hok), fun x ha ho hx => ?_⟩
    have hu := Untouched.addBalance hx b (Int.le_refl 0)
    exact hu.trans (hH _ _ hp _ _ _ _ _ _ x ha ho (hu.wallet hx) hok)
  create0 b h hn _ := ⟨(value_rule hC).create0 b h hn h, fun x ha _ _ => by
    refine Untouched.of_acct ?_ rfl
    show (World.setNonce _ _ _).acct x = _
    unfold World.setNonce
    rw [acct_modify, if_neg ha]⟩
  create {a b w v} _ h hw hv hb hn hc := ⟨(Conserves.created h hv hb).solvent, fun w3 code h3 _ => by
    have hcr := Conserves.created (b := b) h hv hb
    obtain ⟨h4, h5⟩ := h3 hcr.solvent
    refine ⟨(hcr.trans h4).trans (Conserves.setCode h4.solvent _ _), fun x ha ho hx => ?_⟩
    have hne : x ≠ b := fun e => hx.2 (by rw [e]; exact hn)
    have u1 : Untouched x w (w.createAccount b) := Untouched.modify_other hne
    have u2 : Untouched x (w.createAccount b) ((w.createAccount b).setNonce b 1) := Untouched.modify_other hne
    have u3 : Untouched x w (created w a b v) := (u1.trans u2).trans (Untouched.transfer ((u1.trans u2).wallet hx) ha b hv)
    exact (u3.trans (h5 x hne ho (u3.wallet hx))).trans (Untouched.modify_other hne)⟩

/-! ### Theorems: wallets -/

/-- A transaction that calls any code leaves every other wallet alone: its balance does not fall; nonce, code and storage stay. -/
theorem call_spares_wallets {env : Env} (hP : PrecompilesPay env) (hC : PrecompilesConserve env) (hH : PrecompilesHonest env) {fuel gas : Nat} (hg : gas < 2 ^ 64) (hf : gas < fuel)
    {addr : Addr} (input : List UInt8) {value : Int} {w : World} (hv : 0 ≤ value) (hs : Solvent w) (ha : w.warmA addr = true) {x : Addr} (hx : x ≠ env.origin) (hw : w.wallet x) :
    let r := evmCall env (run env fuel) 0 false env.origin addr input gas value w
    r.status ≠ .panic → Untouched x w r.world := by
  intro r hr
  have h := evmCall_obeys (run_obeys hP (wallet_rule hC hH) fuel) (wallet_rule hC hH) (depth := 0) (ro := false) (a := env.origin) (input := input) hg hs ha (fun h => by cases h) hv
  exact (h.1 hr (call_terminates hP hg hf 0 false env.origin addr input value w).1 hs).2 x hx hx hw

theorem create_spares_wallets {env : Env} (hP : PrecompilesPay env) (hC : PrecompilesConserve env) (hH : PrecompilesHonest env) {fuel gas : Nat} (hg : gas < 2 ^ 64) (hf : gas < fuel)
    {addr : Addr} (code : List UInt8) {value : Int} {w : World} (hv : 0 ≤ value) (hs : Solvent w) {x : Addr} (hx : x ≠ env.origin) (hw : w.wallet x) :
    let r := evmCreate env (run env fuel) 0 false env.origin addr code gas value w
    r.status ≠ .panic → Untouched x w r.world := by
  intro r hr
  have h := evmCreate_obeys (run_obeys hP (wallet_rule hC hH) fuel) (wallet_rule hC hH) (depth := 0) (a := env.origin) (b := addr) (code := code) trivial hg hs hv
  exact (h.1 hr (create_terminates hP hg hf 0 false env.origin addr code value w).1 hs).2 x hx hx hw

/-! ### Examples -/

example : PrecompilesConserve demoEnv ∧ PrecompilesHonest demoEnv := ⟨(fun _ _ h => nomatch h), (fun _ _ h => nomatch h)⟩

/-- `PUSH1 0` (four times) `PUSH1 3 PUSH1 0x22 GAS CALL` and then `PUSH1 0x33 SELFDESTRUCT`: sends 3 to one wallet, leaves the rest to another. -/
def splitter : List UInt8 := [0x60, 0, 0x60, 0, 0x60, 0, 0x60, 0, 0x60, 3, 0x60, 0x22, 0x5a, 0xf1, 0x60, 0x33, 0xff]
def splitWorld : World :=
  let w := demoWorld [(0xaa#160, splitter)]
  { w with accts := (0x22#160, { nonce := 1, balance := 5 }) :: w.accts }
example : let r := evmCall demoEnv (run demoEnv 100000) 0 false 0x11#160 0xaa#160 [] 90000 7 splitWorld
    r.status = .ok ∧ r.world.balance 0x22#160 = 8 ∧ r.world.balance 0x33#160 = 14 ∧ r.world.balance 0xaa#160 = 0 ∧ r.world.balance 0x11#160 = 993 ∧
    r.world.total = 1015 ∧ splitWorld.total = 1015 := by decide +kernel
example : Solvent splitWorld := by
  refine ⟨by unfold KV.Distinct; decide +kernel, ?_⟩
  intro a
  unfold World.balance
  cases h : splitWorld.acct a with
  | none => exact Int.le_refl 0
  | some c =>
    have := KV.mem_of_get h
    simp only [splitWorld, demoWorld, List.map_cons, List.map_nil, List.mem_cons, List.not_mem_nil, or_false, Prod.mk.injEq] at this
    rcases this with ⟨_, rfl⟩ | ⟨_, rfl⟩ | ⟨_, rfl⟩ <;> decide
example : splitWorld.wallet 0x22#160 := ⟨by decide +kernel, by decide +kernel⟩
/-- A contract that leaves its balance to itself destroys it. -/
example : let r := evmCall demoEnv (run demoEnv 100000) 0 false 0x11#160 0xaa#160 [] 90000 7 (demoWorld [(0xaa#160, [0x30, 0xff])])
    r.status = .ok ∧ r.world.total = 993 ∧ r.world.burnt = 17 := by decide +kernel

end VM
