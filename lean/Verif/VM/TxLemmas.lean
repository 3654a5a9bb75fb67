import Verif.VM.IdleRule
import Verif.VM.Tx
/-!
# Lemmas about the steps of a transaction
-/
namespace VM

/-- Between transactions: no half-written storage, no deleted accounts, and only existing accounts have storage. -/
structure Clean (w : World) : Prop where
  settled : ∀ a c, w.acct a = some c → c.dirty = [] ∧ c.suicided = false
  absent : ∀ a k, w.acct a = none → w.store a k = 0#256

theorem Clean.suicided {w : World} (h : Clean w) (x : Addr) : w.suicided x = false := by
  unfold World.suicided
  cases e : w.acct x with
  | none => rfl
  | some c => exact (h.settled x c e).2

theorem Clean.modify {w : World} (h : Clean w) (a : Addr) {f : Acct → Acct} (hd : ∀ c, (f c).dirty = c.dirty) (hs : ∀ c, (f c).suicided = c.suicided) : Clean (w.modify a f) := by
  constructor
  · intro b c hc
    rw [acct_modify] at hc
    split at hc
    · cases hc
      rw [hd, hs]
      cases e : w.acct a with
      | none => exact ⟨rfl, rfl⟩
      | some c => exact h.settled a c e
    · exact h.settled b c hc
  · intro b k hb
    rw [acct_modify] at hb
    split at hb
    · cases hb
    · exact h.absent b k hb

theorem Clean.setNonce {w : World} (h : Clean w) (a : Addr) (n : Nat) : Clean (w.setNonce a n) := h.modify a (fun _ => rfl) (fun _ => rfl)
theorem Clean.transfer {w : World} (h : Clean w) (a b : Addr) (v : Int) : Clean (w.transfer a b v) :=
  (h.modify a (f := fun c => { c with balance := c.balance - v }) (fun _ => rfl) (fun _ => rfl)).modify b (f := fun c => { c with balance := c.balance + v }) (fun _ => rfl) (fun _ => rfl)

/-! ### Nonces -/

theorem nonce_setNonce (w : World) (a : Addr) (n : Nat) (x : Addr) : (w.setNonce a n).nonce x = if x = a then n else w.nonce x := by
  unfold World.setNonce World.nonce
  rw [acct_modify]
  split <;> rfl

theorem exist_setNonce (w : World) (a : Addr) (n : Nat) {x : Addr} (h : w.exist x = true) : (w.setNonce a n).exist x = true := by
  unfold World.setNonce World.exist
  rw [acct_modify]
  split
  · rfl
  · exact h

theorem acct_setNonce_self {w : World} {a : Addr} {c : Acct} (h : w.acct a = some c) (n : Nat) : (w.setNonce a n).acct a = some { c with nonce := n } := by
  unfold World.setNonce
  rw [acct_modify, if_pos rfl, h]
  rfl

/-- Equal but for the nonce. -/
theorem Kept.setNonce {x : Addr} {w w' : World} (h : Kept x w w') (hx : w.exist x = true) (n : Nat) : Kept x (w.setNonce x n) (w'.setNonce x n) := by
  obtain ⟨c, hc⟩ := exist_acct hx
  obtain ⟨c', hc'⟩ := exist_acct (h.exist.trans hx)
  have a1 := acct_setNonce_self hc n
  have a2 := acct_setNonce_self hc' n
  have h1 := h.code
  have h2 := h.state
  have h3 := h.suicided
  unfold World.code at h1
  unfold World.suicided at h3
  rw [hc, hc'] at h1 h3
  refine ⟨?_, ?_, ?_, ?_, ?_⟩
  · unfold World.exist; rw [a1, a2]; rfl
  · unfold World.nonce; rw [a1, a2]; rfl
  · unfold World.code; rw [a1, a2]; exact h1
  · intro k
    have := h2 k
    unfold World.state at this ⊢
    rw [hc, hc'] at this
    rw [a1, a2]
    exact this
  · unfold World.suicided; rw [a1, a2]; exact h3

theorem Kept.setNonce_twice {x : Addr} {w : World} (hx : w.exist x = true) (n m : Nat) : Kept x (w.setNonce x m) ((w.setNonce x n).setNonce x m) := by
  obtain ⟨c, hc⟩ := exist_acct hx
  refine Kept.of_acct ?_ rfl
  rw [acct_setNonce_self (acct_setNonce_self hc n) m, acct_setNonce_self hc m]

theorem Kept.setNonce_same {x : Addr} {w : World} (hx : w.exist x = true) : Kept x w (w.setNonce x (w.nonce x)) := by
  obtain ⟨c, hc⟩ := exist_acct hx
  refine Kept.of_acct ?_ rfl
  rw [acct_setNonce_self hc, hc]
  unfold World.nonce
  rw [hc]
  rfl

/-! ### The sender during the execution -/

theorem finish_world {w : World} {r : Res} (h1 : r.status ≠ .panic) (h2 : r.status ≠ .outOfFuel) : (r.status = .ok ∧ (finish w r).world = r.world) ∨ (finish w r).world = w := by
  unfold finish
  cases hs : r.status with
  | ok => exact Or.inl ⟨rfl, rfl⟩
  | reverted => exact Or.inr rfl
  | fail => exact Or.inr rfl
  | panic => exact absurd hs h1
  | outOfFuel => exact absurd hs h2

section
variable {env : Env} {G E : Addr → Prop}

/-- What a call does to the account that sent the transaction. -/
theorem call_sender (hP : PrecompilesPay env) (hC : PrecompilesConserve env) (hG : PrecompilesGentle env G E) (hD : NotDerived env G) {fuel gas : Nat} (hg : gas < 2 ^ 64)
    {o b : Addr} {input : List UInt8} {v : Int} {w : World} (hv : 0 ≤ v) (hs : Solvent w) (ho : w.idle G o)
    (h1 : (evmCall env (run env fuel) 0 false o b input gas v w).status ≠ .panic) (h2 : (evmCall env (run env fuel) 0 false o b input gas v w).status ≠ .outOfFuel) :
    Kept o w (evmCall env (run env fuel) 0 false o b input gas v w).world ∧
      (env.precompile b = none → ¬ E o → w.balance o - v ≤ (evmCall env (run env fuel) 0 false o b input gas v w).world.balance o) := by
  have same : Kept o w w ∧ (env.precompile b = none → ¬ E o → w.balance o - v ≤ w.balance o) := ⟨Kept.refl _ _, fun _ _ => by omega⟩
  unfold evmCall at h1 h2 ⊢
  split at h1
  · rename_i c1; rw [if_pos c1]; exact same
  · rename_i c1
    rw [if_neg c1] at h2 ⊢
    split at h1
    · rename_i c2; rw [if_pos c2]; exact same
    · rename_i c2
      rw [if_neg c2] at h2 ⊢
      split at h1
      · rename_i c3; rw [if_pos c3]; exact same
      · rename_i c3
        rw [if_neg c3] at h2 ⊢
        split at h1
        · rename_i c4; rw [if_pos c4]; exact same
        · rename_i c4
          rw [if_neg c4] at h2 ⊢
          have hbal : v ≠ 0 → v ≤ w.balance o := fun h => Int.le_of_not_gt fun h' => c3 ⟨h, h'⟩
          have hc := Conserves.enter (b := b) hs hv hbal
          have ke := Kept.enter ho.1 o b v
          have be : w.balance o - v ≤ (enter w o b v).balance o := by
            rw [balance_enter, balance_transfer, if_pos rfl]
            split <;> omega
          dsimp only at h1 h2 ⊢
          rw [finish_status] at h1 h2
          rcases finish_world (w := w) h1 h2 with ⟨hok, hw⟩ | hw
          · rw [hw]
            cases hp : env.precompile b with
            | some p =>
              rw [hp] at hok
              have := hG _ _ hp _ _ _ _ _ _ o (ke.idle ho) (ofPRes_ok hok)
              exact ⟨ke.trans this.1, fun h => by cases h⟩
            | none =>
              rw [hp] at hok
              have hr := (runCode_obeys (run_obeys hP (idle_rule hC hG hD) fuel) (idle_rule hC hG hD)
                (ctx := { self := b, caller := o, value := v, input := input, code := (enter w o b v).code b, depth := 0 + 1, readOnly := false }) (w := enter w o b v) (gas := gas) hg hc.solvent).1 hok hc.solvent
              by_cases e : o = b
              · subst e
                have he : (runCode (run env fuel) { self := o, caller := o, value := v, input := input, code := (enter w o o v).code o, depth := 0 + 1, readOnly := false } (enter w o o v) gas).world
                    = enter w o o v := runCode_empty _ (ke.idle ho).2.1
                refine ⟨?_, fun _ _ => ?_⟩
                · exact he ▸ ke
                · exact he ▸ be
              · exact ⟨ke.trans (hr.2.kept o e (ke.idle ho)), fun _ hE => Int.le_trans be (hr.2.balance o e (ke.idle ho) hE)⟩
          · rw [hw]; exact same

theorem deposit_world {b : Addr} {r : Res} (h : (deposit b r).status = .ok) : r.status = .ok ∧ (deposit b r).world = r.world.setCode b r.ret := by
  unfold deposit at h ⊢
  cases hs : r.status with
  | ok =>
    rw [hs] at h
    dsimp only at h ⊢
    split at h
    · cases h
    · rename_i c1
      rw [if_neg c1]
      split at h
      · cases h
      · rename_i c2
        rw [if_neg c2]
        split at h
        · cases h
        · rename_i c3
          rw [if_neg c3]
          exact ⟨rfl, rfl⟩
  | reverted => rw [hs] at h; exact absurd (h.symm.trans hs) (by simp)
  | fail => rw [hs] at h; exact absurd (h.symm.trans hs) (by simp)
  | panic => rw [hs] at h; exact absurd (h.symm.trans hs) (by simp)
  | outOfFuel => rw [hs] at h; exact absurd (h.symm.trans hs) (by simp)

theorem add64_pos {n : Nat} (h : ¬ add64 n 1 < n) : add64 n 1 ≠ 0 := by
  intro e
  rw [e] at h
  have : n = 0 := by omega
  subst this
  exact absurd e (by decide)

/-- What a creation does to the account that sent the transaction; its nonce apart. -/
theorem create_sender (hP : PrecompilesPay env) (hC : PrecompilesConserve env) (hG : PrecompilesGentle env G E) (hD : NotDerived env G) {fuel gas : Nat} (hg : gas < 2 ^ 64)
    {o b : Addr} {code : List UInt8} {v : Int} {w : World} (hv : 0 ≤ v) (hs : Solvent w) (he : w.exist o = true) (hcode : w.code o = []) (hb : ¬ G b) (n : Nat)
    (h1 : (evmCreate env (run env fuel) 0 false o b code gas v w).status ≠ .panic) (h2 : (evmCreate env (run env fuel) 0 false o b code gas v w).status ≠ .outOfFuel) :
    Kept o (w.setNonce o n) ((evmCreate env (run env fuel) 0 false o b code gas v w).world.setNonce o n) ∧
      (¬ E o → w.balance o - v ≤ (evmCreate env (run env fuel) 0 false o b code gas v w).world.balance o) := by
  have same : Kept o (w.setNonce o n) (w.setNonce o n) ∧ (¬ E o → w.balance o - v ≤ w.balance o) := ⟨Kept.refl _ _, fun _ => by omega⟩
  unfold evmCreate at h1 h2 ⊢
  split at h1
  · rename_i c1; rw [if_pos c1]; exact same
  · rename_i c1
    rw [if_neg c1] at h2 ⊢
    split at h1
    · rename_i c2; rw [if_pos c2]; exact same
    · rename_i c2
      rw [if_neg c2] at h2 ⊢
      split at h1
      · rename_i c3; rw [if_pos c3]; exact same
      · rename_i c3
        rw [if_neg c3] at h2 ⊢
        split at h1
        · rename_i c4; rw [if_pos c4]; exact same
        · rename_i c4
          rw [if_neg c4] at h2 ⊢
          dsimp only at h1 h2 ⊢
          have k1 : Kept o (w.setNonce o n) (((w.setNonce o (add64 (w.nonce o) 1)).warmAddr b).setNonce o n) := by
            refine (Kept.setNonce_twice he (add64 (w.nonce o) 1) n).trans (Kept.of_acct ?_ rfl)
            rfl
          have b1 : ((w.setNonce o (add64 (w.nonce o) 1)).warmAddr b).balance o = w.balance o := balance_setNonce w o o _
          have s1 : Solvent ((w.setNonce o (add64 (w.nonce o) 1)).warmAddr b) := (Conserves.same (w' := (w.setNonce o (add64 (w.nonce o) 1)).warmAddr b) (Conserves.setNonce hs o (add64 (w.nonce o) 1)).solvent rfl rfl).solvent
          have e1 : ((w.setNonce o (add64 (w.nonce o) 1)).warmAddr b).exist o = true := exist_setNonce w o _ he
          have n1 : ((w.setNonce o (add64 (w.nonce o) 1)).warmAddr b).nonce o = add64 (w.nonce o) 1 := by
            refine Eq.trans (nonce_setNonce w o (add64 (w.nonce o) 1) o) ?_
            rw [if_pos rfl]
          have co1 : ((w.setNonce o (add64 (w.nonce o) 1)).warmAddr b).code o = [] := by
            refine Eq.trans ?_ hcode
            show (w.setNonce o _).code o = _
            unfold World.setNonce World.code
            rw [acct_modify, if_pos rfl]
            cases w.acct o <;> rfl
          generalize (w.setNonce o (add64 (w.nonce o) 1)).warmAddr b = w1 at h1 h2 k1 b1 s1 e1 n1 co1 ⊢
          have kept1 : Kept o (w.setNonce o n) (w1.setNonce o n) ∧ (¬ E o → w.balance o - v ≤ w1.balance o) := ⟨k1, fun _ => by omega⟩
          split at h1
          · rename_i c5; rw [if_pos c5]; exact kept1
          · rename_i c5
            rw [if_neg c5] at h2 ⊢
            rw [finish_status] at h1 h2
            have hb0 : w1.nonce b = 0 := Nat.eq_zero_of_not_pos fun h => c5 (Or.inl (by omega))
            have hi : w1.idle G o := ⟨e1, co1, Or.inl (by rw [n1]; exact add64_pos c4)⟩
            have hne : o ≠ b := fun e => by
              have := hi.2.2
              rw [e] at this
              rcases this with h | h
              · exact h hb0
              · exact hb h
            rcases finish_world (w := w1) h1 h2 with ⟨hok, hw⟩ | hw
            · rw [hw]
              obtain ⟨hok', hw'⟩ := deposit_world hok
              rw [hw']
              have hbal : v ≤ w1.balance o := by omega
              have hc := Conserves.created (b := b) s1 hv hbal
              have hr := ((runCode_obeys (run_obeys hP (idle_rule hC hG hD) fuel) (idle_rule hC hG hD)
                (ctx := { self := b, caller := o, value := v, input := [], code := code, depth := 0 + 1, readOnly := false }) (w := created w1 o b v) (gas := gas) hg hc.solvent).1 hok' hc.solvent).2
              have k2 : Kept o w1 ((w1.createAccount b).setNonce b 1) := (Kept.modify_other hne).trans (Kept.modify_other hne)
              have k3 : Kept o w1 (created w1 o b v) := k2.trans (Kept.transfer (k2.exist.trans e1) o b v)
              have b2 : ((w1.createAccount b).setNonce b 1).balance o = w1.balance o := (balance_modify_other hne).trans (balance_modify_other hne)
              have b3 : w1.balance o - v ≤ (created w1 o b v).balance o := by
                unfold created
                rw [balance_transfer, if_pos rfl, if_neg hne, b2]
                omega
              refine ⟨k1.trans (Kept.setNonce ?_ e1 n), fun hE => ?_⟩
              · exact (k3.trans (hr.kept o hne (k3.idle hi))).trans (Kept.modify_other hne)
              · have b4 := hr.balance o hne (k3.idle hi) hE
                refine Int.le_trans ?_ (Int.le_of_eq (balance_modify_other hne).symm)
                refine Int.le_trans ?_ b4
                omega
            · rw [hw]; exact kept1

end

/-! ### The execution -/

/-- The assumptions about precompiled contracts and addresses. `G` are accounts at which no contract can be created, `E` those whose coins precompiled contracts may take. -/
structure Chain.Sound (c : Chain) (G E : Addr → Prop) : Prop where
  pay : PrecompilesPay c.vm
  conserve : PrecompilesConserve c.vm
  gentle : PrecompilesGentle c.vm G E
  derived : NotDerived c.vm G

/-- What an execution does. -/
structure Executed (G E : Addr → Prop) (c : Chain) (t : Tx) (w w' : World) : Prop where
  conserves : Conserves w w'
  spared : Spared G E t.sender w w'
  sender : Kept t.sender w w'
  balance : (∀ b, t.to = some b → c.vm.precompile b = none) → ¬ E t.sender → w.balance t.sender - t.value ≤ w'.balance t.sender

theorem execute_does {G E : Addr → Prop} {c : Chain} (h : c.Sound G E) {t : Tx} (base : Nat) {w : World} (hgas : t.gas < 2 ^ 64) (hs : Solvent w)
    (he : w.exist t.sender = true) (hc : w.code t.sender = []) (hn : w.nonce t.sender = t.nonce + 1) (hw : ∀ b, t.to = some b → w.warmA b = true)
    (h1 : (execute c t base w).status ≠ .panic) (h2 : (execute c t base w).status ≠ .outOfFuel) : Executed G E c t w (execute c t base w).world := by
  have hP : PrecompilesPay (c.env t base) := h.pay
  have hC : PrecompilesConserve (c.env t base) := h.conserve
  have hG : PrecompilesGentle (c.env t base) G E := h.gentle
  have hD : NotDerived (c.env t base) G := h.derived
  have hg : t.gas - intrinsic t < 2 ^ 64 := Nat.lt_of_le_of_lt (Nat.sub_le _ _) hgas
  have hv : (0 : Int) ≤ (t.value : Int) := Int.natCast_nonneg _
  unfold execute at h1 h2 ⊢
  cases hto : t.to with
  | some b =>
    rw [hto] at h1 h2
    dsimp only at h1 h2 ⊢
    have r := (evmCall_obeys (run_obeys hP (idle_rule hC hG hD) (t.gas - intrinsic t + 1)) (idle_rule hC hG hD) (depth := 0) (ro := false) (a := t.sender) (b := b) (input := t.data) hg hs
      (hw b hto) (fun h => by cases h) hv).1 h1 h2 hs
    have q := call_sender hP hC hG hD hg hv hs ⟨he, hc, Or.inl (by rw [hn]; exact Nat.succ_ne_zero _)⟩ h1 h2
    exact ⟨r.1, r.2, q.1, fun hp hE => q.2 (hp b hto) hE⟩
  | none =>
    rw [hto] at h1 h2
    dsimp only at h1 h2 ⊢
    have hs0 := (Conserves.setNonce hs t.sender t.nonce)
    have hb : ¬ G ((c.env t base).createAddr t.sender t.nonce) := hD.1 _ _
    have he0 := exist_setNonce w t.sender t.nonce he
    have hc0 : (w.setNonce t.sender t.nonce).code t.sender = [] := by
      refine Eq.trans ?_ hc
      unfold World.setNonce World.code
      rw [acct_modify, if_pos rfl]
      cases w.acct t.sender <;> rfl
    have r := (evmCreate_obeys (run_obeys hP (idle_rule hC hG hD) (t.gas - intrinsic t + 1)) (idle_rule hC hG hD) (depth := 0) (a := t.sender) (code := t.data) hb hg hs0.solvent hv).1
      h1 h2 hs0.solvent
    have q := create_sender hP hC hG hD hg hv hs0.solvent he0 hc0 hb (t.nonce + 1) h1 h2
    refine ⟨(hs0.trans r.1).trans (Conserves.setNonce r.1.solvent _ _), ?_, ?_, ?_⟩
    · exact (Spared.modify_self.trans r.2).trans Spared.modify_self
    · have k0 := Kept.setNonce_same he
      rw [hn] at k0
      exact (k0.trans (Kept.setNonce_twice he t.nonce (t.nonce + 1))).trans q.1
    · intro _ hE
      have := q.2 hE
      rw [balance_setNonce] at this
      rw [balance_setNonce]
      exact this

theorem execute_terminates {c : Chain} (hP : PrecompilesPay c.vm) {t : Tx} (base : Nat) (w : World) (hgas : t.gas < 2 ^ 64) :
    (execute c t base w).status ≠ .outOfFuel ∧ (execute c t base w).gas ≤ t.gas - intrinsic t := by
  have hP' : PrecompilesPay (c.env t base) := hP
  have hg : t.gas - intrinsic t < 2 ^ 64 := Nat.lt_of_le_of_lt (Nat.sub_le _ _) hgas
  unfold execute
  cases hto : t.to with
  | some b => exact call_terminates hP' hg (Nat.lt_succ_self _) 0 false t.sender b t.data t.value w
  | none => exact create_terminates hP' hg (Nat.lt_succ_self _) 0 false t.sender _ t.data t.value _

/-- Without assumptions about accounts. -/
theorem execute_conserves {c : Chain} (hP : PrecompilesPay c.vm) (hC : PrecompilesConserve c.vm) {t : Tx} (base : Nat) {w : World} (hgas : t.gas < 2 ^ 64) (hs : Solvent w)
    (hw : ∀ b, t.to = some b → w.warmA b = true) (h1 : (execute c t base w).status ≠ .panic) : Conserves w (execute c t base w).world := by
  have hP' : PrecompilesPay (c.env t base) := hP
  have hC' : PrecompilesConserve (c.env t base) := hC
  have hg : t.gas - intrinsic t < 2 ^ 64 := Nat.lt_of_le_of_lt (Nat.sub_le _ _) hgas
  have hv : (0 : Int) ≤ (t.value : Int) := Int.natCast_nonneg _
  unfold execute at h1 ⊢
  cases hto : t.to with
  | some b =>
    rw [hto] at h1
    have := call_conserves hP' hC' hg (Nat.lt_succ_self _) 0 (ro := false) t.data hv (fun h => by cases h) hs (hw b hto) h1
    exact ⟨this.1, this.2⟩
  | none =>
    rw [hto] at h1
    have hs0 := (Conserves.setNonce hs t.sender t.nonce)
    have := create_conserves hP' hC' hg (Nat.lt_succ_self _) 0 t.data hv hs0.solvent h1
    exact (hs0.trans ⟨this.1, this.2⟩).trans (Conserves.setNonce this.1 _ _)

theorem prepare_safe (c : Chain) (t : Tx) {w : World} (h : Clean w) : Safe (prepare c t w) := by
  refine ⟨⟨[], List.nodup_nil, ?_, by simp⟩, h.absent⟩
  intro p
  refine ⟨fun h => (nomatch h), fun hp => absurd hp.2 ?_⟩
  have hp1 : (prepare c t w).committed p.1 p.2 ≠ 0#256 := hp.1
  show (prepare c t w).state p.1 p.2 ≠ 0#256
  have e : (prepare c t w).acct p.1 = w.acct p.1 := rfl
  unfold World.committed World.exist at hp1
  unfold World.state
  rw [e] at hp1 ⊢
  cases ha : w.acct p.1 with
  | none => rw [ha] at hp1; simp at hp1
  | some d =>
    rw [ha] at hp1
    dsimp only
    rw [(h.settled _ _ ha).1]
    exact hp1

theorem execute_safe {c : Chain} (hP : PrecompilesPay c.vm) (hT : PrecompilesTame c.vm) {t : Tx} (base : Nat) {w : World} (hgas : t.gas < 2 ^ 64) (h : Clean w) :
    (execute c t base (prepare c t w)).status ≠ .panic := by
  have hP' : PrecompilesPay (c.env t base) := hP
  have hT' : PrecompilesTame (c.env t base) := hT
  have hg : t.gas - intrinsic t < 2 ^ 64 := Nat.lt_of_le_of_lt (Nat.sub_le _ _) hgas
  have hv : (0 : Int) ≤ (t.value : Int) := Int.natCast_nonneg _
  have hsw : (prepare c t w).warmA t.sender = true := by simp [prepare]
  unfold execute
  cases hto : t.to with
  | some b =>
    exact (call_never_panics hP' hT' hg (Nat.lt_succ_self _) 0 (ro := false) t.data hv (fun h => by cases h) (prepare_safe c t h) hsw (by simp [prepare, hto])).1
  | none =>
    have hs : Safe ((prepare c t w).setNonce t.sender t.nonce) := prepare_safe c t (h.setNonce t.sender t.nonce)
    exact (create_never_panics hP' hT' hg (Nat.lt_succ_self _) 0 t.data hv hs hsw).1

/-! ### The commit -/

theorem get_settled {l : List (Addr × Acct)} (h : KV.Distinct l) (k : Addr) :
    KV.get ((l.filter (fun e => !e.2.suicided)).map (fun e => (e.1, e.2.settled))) k = (KV.get l k).bind (fun c => if c.suicided then none else some c.settled) := by
  induction l with
  | nil => rfl
  | cons e l ih =>
    unfold KV.Distinct at h
    rw [List.map_cons, List.nodup_cons] at h
    have ih := ih h.2
    rw [KV.get_cons, List.filter_cons]
    by_cases hk : e.1 = k
    · rw [if_pos hk]
      have hn : KV.get l k = none := KV.get_eq_none.mpr fun e' he' hek => h.1 (by rw [hk, ← hek]; exact List.mem_map_of_mem he')
      rw [hn] at ih
      cases hsu : e.2.suicided with
      | true =>
        rw [if_neg (by simp), ih]
        simp [hsu]
      | false =>
        rw [if_pos (by simp), List.map_cons, KV.get_cons, if_pos hk]
        simp [hsu]
    · rw [if_neg hk]
      split
      · rw [List.map_cons, KV.get_cons, if_neg hk]
        exact ih
      · exact ih

theorem sum_split (l : List (Addr × Acct)) :
    (((l.filter (fun e => !e.2.suicided)).map (fun e => (e.1, e.2.settled))).map (fun e => e.2.balance)).sum + ((l.filter (fun e => e.2.suicided)).map (fun e => e.2.balance)).sum =
      (l.map (fun e => e.2.balance)).sum := by
  induction l with
  | nil => rfl
  | cons e l ih =>
    rw [List.filter_cons, List.filter_cons]
    cases hsu : e.2.suicided with
    | true =>
      simp only [Bool.not_true, Bool.false_eq_true, if_false, if_true, List.map_cons, List.sum_cons]
      omega
    | false =>
      simp only [Bool.not_false, Bool.false_eq_true, if_false, if_true, List.map_cons, List.sum_cons]
      have : e.2.settled.balance = e.2.balance := rfl
      omega

theorem state_of_none {w : World} {x : Addr} (h : w.acct x = none) {k : Word} : w.state x k = 0#256 := by
  unfold World.state
  rw [h]

theorem state_of_settled {w : World} {x : Addr} {c : Acct} (h : w.acct x = some c) (hd : c.dirty = []) (k : Word) : w.state x k = w.store x k := by
  unfold World.state
  rw [h]
  dsimp only
  rw [hd]
  rfl

theorem suicided_of {w : World} {x : Addr} {o : Option Acct} (h : w.acct x = o) : w.suicided x = (o.map (·.suicided)).getD false := by
  unfold World.suicided
  rw [h]

/-- What the commit does. -/
structure Committed (w w' : World) : Prop where
  conserves : Conserves w w'
  clean : Clean w'
  kept : ∀ x, w.suicided x = false → Kept x w w'
  balance : ∀ x, w.suicided x = false → w'.balance x = w.balance x

theorem commit_does {c : Chain} {w0 w w' : World} (hs : Solvent w) (h : commit c w0 w = some w') : Committed w w' := by
  unfold commit at h
  split at h
  · cases h
  · cases h
    have hacct : ∀ x, World.acct { w with
        accts := (w.accts.filter (fun e => !e.2.suicided)).map (fun e => (e.1, e.2.settled))
        store := fun a k => if w.suicided a then 0#256 else w.state a k
        burnt := w.burnt + ((w.accts.filter (fun e => e.2.suicided)).map (fun e => e.2.balance)).sum
        refund := 0 } x = (w.acct x).bind (fun c => if c.suicided then none else some c.settled) := fun x => get_settled hs.distinct x
    have hbal : ∀ x, w.suicided x = false → World.balance { w with
        accts := (w.accts.filter (fun e => !e.2.suicided)).map (fun e => (e.1, e.2.settled))
        store := fun a k => if w.suicided a then 0#256 else w.state a k
        burnt := w.burnt + ((w.accts.filter (fun e => e.2.suicided)).map (fun e => e.2.balance)).sum
        refund := 0 } x = w.balance x := by
      intro x hx
      unfold World.balance
      rw [hacct]
      unfold World.suicided at hx
      cases e : w.acct x with
      | none => rfl
      | some a =>
        rw [e] at hx
        have hx : a.suicided = false := hx
        simp [hx, Acct.settled]
    refine ⟨⟨⟨?_, ?_⟩, ?_⟩, ?_, ?_, hbal⟩
    · show (((w.accts.filter (fun e => !e.2.suicided)).map (fun e => (e.1, e.2.settled))).map (·.1)).Nodup
      rw [List.map_map]
      exact List.Nodup.sublist (List.Sublist.map _ List.filter_sublist) hs.distinct
    · intro a
      unfold World.balance
      rw [hacct]
      cases e : w.acct a with
      | none => exact Int.le_refl 0
      | some b =>
        have := hs.nonneg a
        unfold World.balance at this
        rw [e] at this
        have this : 0 ≤ b.balance := this
        cases hsu : b.suicided <;> simp [hsu, Acct.settled, this]
    · have := sum_split w.accts
      show (((w.accts.filter (fun e => !e.2.suicided)).map (fun e => (e.1, e.2.settled))).map (fun e => e.2.balance)).sum +
        (w.burnt + ((w.accts.filter (fun e => e.2.suicided)).map (fun e => e.2.balance)).sum) = (w.accts.map (fun e => e.2.balance)).sum + w.burnt
      omega
    · refine ⟨?_, ?_⟩
      · intro a b hb
        rw [hacct] at hb
        cases e : w.acct a with
        | none => rw [e] at hb; cases hb
        | some d =>
          rw [e] at hb
          cases hsu : d.suicided with
          | true => simp [hsu] at hb
          | false =>
            simp [hsu] at hb
            subst hb
            exact ⟨rfl, hsu⟩
      · intro a k hb
        rw [hacct] at hb
        show (if w.suicided a then 0#256 else w.state a k) = 0#256
        cases e : w.acct a with
        | none => rw [state_of_none e]; split <;> rfl
        | some d =>
          rw [e] at hb
          cases hsu : d.suicided with
          | false => simp [hsu] at hb
          | true =>
            rw [suicided_of e]
            simp [hsu]
    · intro x hx
      have hx' := hx
      unfold World.suicided at hx
      refine ⟨?_, ?_, ?_, ?_, ?_⟩
      · unfold World.exist
        rw [hacct]
        cases e : w.acct x with
        | none => rfl
        | some a => rw [e] at hx; have hx : a.suicided = false := hx; simp [hx]
      · unfold World.nonce
        rw [hacct]
        cases e : w.acct x with
        | none => rfl
        | some a => rw [e] at hx; have hx : a.suicided = false := hx; simp [hx, Acct.settled]
      · unfold World.code
        rw [hacct]
        cases e : w.acct x with
        | none => rfl
        | some a => rw [e] at hx; have hx : a.suicided = false := hx; simp [hx, Acct.settled]
      · intro k
        cases e : w.acct x with
        | none =>
          rw [state_of_none e]
          refine state_of_none ?_
          rw [hacct, e]
          rfl
        | some a =>
          rw [e] at hx
          have hx : a.suicided = false := hx
          refine (state_of_settled (c := a.settled) ?_ rfl k).trans ?_
          · rw [hacct, e]
            simp [hx]
          · simp [hx']
      · rw [hx']
        refine (suicided_of (hacct x)).trans ?_
        cases e : w.acct x with
        | none => rfl
        | some a => rw [e] at hx; have hx : a.suicided = false := hx; simp [hx, Acct.settled]

/-! ### Payments -/

/-- What a payment of at most `most` from `src` does. -/
structure Paid (src : Addr) (most : Int) (w w' : World) : Prop where
  conserves : Conserves w w'
  clean : Clean w → Clean w'
  kept : ∀ x, w.exist x = true → Kept x w w'
  balance : ∀ x, x ≠ src → w.balance x ≤ w'.balance x
  source : w.balance src - most ≤ w'.balance src

theorem transfer_pays {w : World} (hs : Solvent w) (a b : Addr) {v : Int} (hv : 0 ≤ v) (hb : v ≤ w.balance a) : Paid a v w (w.transfer a b v) :=
  ⟨Conserves.transfer hs hv hb, fun h => h.transfer a b v, fun _ h => Kept.transfer h a b v, fun _ h => balance_transfer_le h b hv, by
    rw [balance_transfer, if_pos rfl]; split <;> omega⟩

theorem Paid.refl {w : World} (hs : Solvent w) (a : Addr) {v : Int} (hv : 0 ≤ v) : Paid a v w w :=
  ⟨Conserves.refl hs, id, fun x _ => Kept.refl x w, fun _ _ => Int.le_refl _, by omega⟩

theorem pay_pays (c : Chain) {w : World} (hs : Solvent w) (dst : Addr) (n : Nat) : Paid c.collector n w (pay c w dst n) := by
  unfold pay
  split
  · exact Paid.refl hs _ (Int.natCast_nonneg _)
  · rename_i h
    exact transfer_pays hs _ _ (Int.natCast_nonneg _) (Int.le_of_not_gt fun h' => h (Or.inr (Or.inr h')))

theorem distribute_pays (c : Chain) (t : Tx) (base used : Nat) {s : St} (hs : Solvent s.world) :
    Paid c.collector (Revenue.portion c.revenue.share (used * t.price.message base) : Nat) s.world (distribute c t base used s).world := by
  unfold distribute
  split
  · exact Paid.refl hs _ (Int.natCast_nonneg _)
  · split
    · exact Paid.refl hs _ (Int.natCast_nonneg _)
    · split
      · exact Paid.refl hs _ (Int.natCast_nonneg _)
      · exact pay_pays c hs _ _

theorem distribute_reg (c : Chain) (t : Tx) (base used : Nat) (s : St) : (distribute c t base used s).reg = s.reg := by
  unfold distribute
  split
  · rfl
  · split
    · rfl
    · split <;> rfl

theorem giveBack_pays {c : Chain} {w w' : World} {dst : Addr} {n : Nat} (hs : Solvent w) (h : giveBack c w dst n = some w') : Paid c.collector n w w' ∧ w' = w.transfer c.collector dst n := by
  unfold giveBack at h
  split at h
  · cases h
  · rename_i hb
    cases h
    exact ⟨transfer_pays hs _ _ (Int.natCast_nonneg _) (Int.le_of_not_gt hb), rfl⟩

theorem message_effective (base : Nat) (p : FeeMarket.Price) : p.message base = p.effective base := by
  cases p with
  | legacy q => show min (q + base) q = q; omega
  | dynamic _ _ => rfl

theorem portion_le {share : Nat} (h : share ≤ 10 ^ 18) (fee : Nat) : Revenue.portion share fee ≤ fee := by
  unfold Revenue.portion
  refine Nat.div_le_of_le_mul ?_
  exact Nat.mul_le_mul_right _ h

theorem gasUsed_le {c : Chain} (h : c.fee.mult ≤ FeeMarket.one) (t : Tx) (r : Res) : gasUsed c t r ≤ t.gas := by
  unfold gasUsed FeeMarket.charged
  refine Nat.div_le_of_le_mul ?_
  rw [Nat.mul_comm FeeMarket.one]
  refine Nat.max_le.mpr ⟨Nat.mul_le_mul_left _ h, Nat.mul_le_mul_right _ ?_⟩
  omega

end VM
