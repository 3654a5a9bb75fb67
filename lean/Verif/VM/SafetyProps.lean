import Verif.VM.FrameRule
/-!
# No execution panics (C67)

Whatever code, input and state: the interpreter never indexes the stack, the memory, the code or the return data out of range, never meets the "impossible
case" of the storage gas function, and the refund counter never goes below zero.
-/
namespace VM

/-! ### Specification -/

/-- The refund counter and storage of a state, as the metering sees them. -/
def World.slots (w : World) : Slots (Addr × Word) where
  orig p := w.committed p.1 p.2
  cur p := w.state p.1 p.2
  warm p := w.warmS p.1 p.2
  refund := w.refund

/-- States in which metering is sound: the counter covers the refunds of cleared slots, and only existing accounts have storage. -/
structure Safe (w : World) : Prop where
  refund : RefundOk 4800 w.slots
  absent : ∀ a k, w.acct a = none → w.store a k = 0#256

/-- A precompiled contract leaves storage slots, counter and access list alone (it may change balances, nonces, logs). -/
structure Tame (w w' : World) : Prop where
  store : w'.store = w.store
  refund : w'.refund = w.refund
  warmA : ∀ a, w.warmA a = true → w'.warmA a = true
  slots : ∀ a c, w.acct a = some c → ∃ c', w'.acct a = some c' ∧ c'.dirty = c.dirty

def PrecompilesTame (env : Env) : Prop := ∀ a p, env.precompile a = some p → ∀ c v i g ro w, (p c v i g ro w).ok = true → Tame w (p c v i g ro w).world

/-! ### Proof -/

theorem acct_modify (w : World) (a b : Addr) (f : Acct → Acct) : (w.modify a f).acct b = if b = a then some (f ((w.acct a).getD {})) else w.acct b := by
  unfold World.modify World.acct
  dsimp only
  rw [KV.get_set]

/-- Cleared slots become no more: a list that contains them is enough. -/
theorem refund_of_superset {w w' : World} (h : RefundOk 4800 w.slots) (hr : w.refund ≤ w'.refund)
    (hc : ∀ a k, w'.committed a k ≠ 0#256 → w'.state a k = 0#256 → w.committed a k ≠ 0#256 ∧ w.state a k = 0#256) : RefundOk 4800 w'.slots := by
  obtain ⟨L, hn, hL, hle⟩ := h
  refine ⟨L.filter (fun p => decide (w'.committed p.1 p.2 ≠ 0#256 ∧ w'.state p.1 p.2 = 0#256)), hn.filter _, ?_, ?_⟩
  · intro p
    rw [List.mem_filter, decide_eq_true_iff]
    exact ⟨fun h => h.2, fun h => ⟨(hL p).2 (hc p.1 p.2 h.1 h.2), h⟩⟩
  · have h1 := List.length_filter_le (fun p => decide (w'.committed p.1 p.2 ≠ 0#256 ∧ w'.state p.1 p.2 = 0#256)) L
    have h2 : 4800 * L.length ≤ w.refund := hle
    show _ ≤ w'.refund
    omega

theorem safe_modify {w : World} (h : Safe w) (a : Addr) (f : Acct → Acct) (hf : ∀ c, (f c).dirty = c.dirty ∨ (f c).dirty = []) : Safe (w.modify a f) := by
  refine ⟨refund_of_superset h.refund (Nat.le_refl _) ?_, ?_⟩
  · intro b k h1 h2
    unfold World.committed World.exist at h1 ⊢
    unfold World.state at h2 ⊢
    rw [acct_modify] at h1 h2
    by_cases e : b = a
    · subst e
      rw [if_pos rfl] at h1 h2
      cases ha : w.acct b with
      | none => exact absurd (h.absent b k ha) h1
      | some c =>
        rw [ha] at h1 h2
        refine ⟨h1, ?_⟩
        dsimp only at h2 ⊢
        rcases hf c with hd | hd
        · rw [← hd]; exact h2
        · change (KV.get (f c).dirty k).getD _ = _ at h2
          rw [hd] at h2
          exact absurd h2 h1
    · rw [if_neg e] at h1 h2
      exact ⟨h1, h2⟩
  · intro b k hb
    rw [acct_modify] at hb
    split at hb
    · cases hb
    · exact h.absent b k hb

theorem safe_of_same {w w' : World} (h : Safe w) (h1 : w'.accts = w.accts) (h2 : w'.store = w.store) (h3 : w'.refund = w.refund) : Safe w' := by
  refine ⟨refund_of_superset h.refund (Nat.le_of_eq h3.symm) ?_, ?_⟩
  · intro a k ha hb
    unfold World.committed World.exist World.acct at *
    unfold World.state World.acct at *
    rw [h1, h2] at ha hb
    exact ⟨ha, hb⟩
  · intro a k ha
    unfold World.acct at ha
    rw [h1] at ha
    rw [h2]
    exact h.absent a k ha

theorem safe_tame {w w' : World} (h : Safe w) (ht : Tame w w') : Safe w' := by
  refine ⟨refund_of_superset h.refund (Nat.le_of_eq ht.refund.symm) ?_, ?_⟩
  · intro a k ha hb
    unfold World.committed World.exist at ha ⊢
    unfold World.state at hb ⊢
    rw [ht.store] at ha hb
    cases he : w.acct a with
    | none =>
      rw [h.absent a k he] at ha
      exact absurd (by split <;> rfl) ha
    | some c =>
      obtain ⟨c', hc', hd⟩ := ht.slots a c he
      rw [hc'] at ha hb
      dsimp only at ha hb ⊢
      rw [hd] at hb
      exact ⟨ha, hb⟩
  · intro a k ha
    rw [ht.store]
    refine h.absent a k ?_
    cases he : w.acct a with
    | none => rfl
    | some c =>
      obtain ⟨c', hc', _⟩ := ht.slots a c he
      rw [hc'] at ha
      cases ha

/-- What executions do to the state as far as panics are concerned. -/
def Keeps (w w' : World) : Prop := (Safe w → Safe w') ∧ ∀ a, w.warmA a = true → w'.warmA a = true

theorem Keeps.refl (w : World) : Keeps w w := ⟨id, fun _ h => h⟩
theorem Keeps.trans {w1 w2 w3 : World} (h1 : Keeps w1 w2) (h2 : Keeps w2 w3) : Keeps w1 w3 := ⟨h2.1 ∘ h1.1, fun a h => h2.2 a (h1.2 a h)⟩
theorem Keeps.modify (w : World) (a : Addr) (f : Acct → Acct) (hf : ∀ c, (f c).dirty = c.dirty ∨ (f c).dirty = []) : Keeps w (w.modify a f) :=
  ⟨fun h => safe_modify h a f hf, fun _ h => h⟩
theorem Keeps.transfer (w : World) (a b : Addr) (v : Int) : Keeps w (w.transfer a b v) :=
  (Keeps.modify w a (fun c => { c with balance := c.balance - v }) (fun _ => .inl rfl)).trans
    (Keeps.modify _ b (fun c => { c with balance := c.balance + v }) (fun _ => .inl rfl))
theorem Keeps.enter (w : World) (a b : Addr) (v : Int) : Keeps w (enter w a b v) := by
  unfold VM.enter
  split
  · exact Keeps.transfer _ _ _ _
  · exact (Keeps.modify w b (fun c => { balance := c.balance }) (fun _ => .inr rfl)).trans (Keeps.transfer _ _ _ _)
theorem Keeps.tame {w w' : World} (h : Tame w w') : Keeps w w' := ⟨fun hs => safe_tame hs h, h.warmA⟩
theorem Keeps.warms {w w' : World} (h : Warms w w') (hr : w'.refund = w.refund) : Keeps w w' := ⟨fun hs => safe_of_same hs h.accts h.store hr, h.warmA⟩

theorem Keeps.addBalance (w : World) (a : Addr) (v : Int) : Keeps w (w.addBalance a v) := Keeps.modify w a (fun c => { c with balance := c.balance + v }) (fun _ => .inl rfl)
theorem Keeps.setNonce (w : World) (a : Addr) (n : Nat) : Keeps w (w.setNonce a n) := Keeps.modify w a (fun c => { c with nonce := n }) (fun _ => .inl rfl)
theorem Keeps.setCode (w : World) (a : Addr) (x : List UInt8) : Keeps w (w.setCode a x) := Keeps.modify w a (fun c => { c with code := x }) (fun _ => .inl rfl)
theorem Keeps.createAccount (w : World) (a : Addr) : Keeps w (w.createAccount a) := Keeps.modify w a (fun c => { balance := c.balance }) (fun _ => .inr rfl)
theorem Keeps.created (w : World) (a b : Addr) (v : Int) : Keeps w (created w a b v) :=
  (Keeps.createAccount w b).trans ((Keeps.setNonce _ b 1).trans (Keeps.transfer _ a b v))

theorem Keeps.suicide (w : World) (a : Addr) : Keeps w (w.suicide a) := by
  unfold World.suicide
  cases ha : w.acct a with
  | none => exact Keeps.refl _
  | some c =>
    have := Keeps.modify w a (fun c => { c with balance := 0, suicided := true }) (fun _ => .inl rfl)
    unfold World.modify at this
    rw [ha] at this
    exact this

theorem Keeps.selfdestruct (w : World) (a b : Addr) : Keeps w (w.selfdestruct a b) := by
  unfold World.selfdestruct
  dsimp only
  refine (Keeps.addBalance w b (w.balance a)).trans ((Keeps.suicide _ a).trans ?_)
  split
  · exact ⟨fun h => safe_of_same h rfl rfl rfl, fun _ h => h⟩
  · exact Keeps.refl _

theorem state_setState (w : World) (a b : Addr) (k j v : Word) (hb : w.acct b = none → w.store b j = 0#256) :
    (w.setState a k v).state b j = if b = a ∧ j = k then v else w.state b j := by
  unfold World.setState World.state
  rw [acct_modify]
  by_cases e : b = a
  · subst e
    rw [if_pos rfl]
    dsimp only
    rw [KV.get_set]
    by_cases e2 : j = k
    · rw [if_pos e2, if_pos ⟨rfl, e2⟩]; rfl
    · rw [if_neg e2, if_neg (fun h => e2 h.2)]
      cases ha : w.acct b with
      | none =>
        exact hb ha
      | some c => rfl
  · rw [if_neg e, if_neg (fun h => e h.1)]
    rfl

theorem committed_setState (w : World) (a b : Addr) (k j v : Word) (hb : w.acct b = none → w.store b j = 0#256) :
    (w.setState a k v).committed b j = w.committed b j := by
  unfold World.setState World.committed World.exist
  rw [acct_modify]
  by_cases e : b = a
  · subst e
    rw [if_pos rfl]
    cases ha : w.acct b with
    | none =>
      show w.store b j = _
      rw [hb ha]
      rfl
    | some c => rfl
  · rw [if_neg e]; rfl

theorem sstore_keeps {m : Mach} {w w1 : World} {a : Addr} {g cost child last : Nat} {k v : Word} (h : sstoreDyn m w a g k v = .ok cost child last w1) :
    Keeps w (w1.setState a k v) := by
  obtain ⟨_, hw, _, _, _, hgas⟩ := sstoreDyn_ok h
  refine ⟨fun hs => ?_, hw.warmA⟩
  have habs : ∀ b j, w1.acct b = none → w1.store b j = 0#256 := by
    intro b j hb
    rw [hw.store]
    rw [hw.acct] at hb
    exact hs.absent b j hb
  obtain ⟨cost', s', hss, hok⟩ := sstore_refund (k := (a, k)) (v := v) hs.refund
  obtain ⟨e1, e2, _, e4⟩ := sstore_orig hss
  have e5 : s'.refund = w1.refund := by
    have : sstoreGas 4800 (w.warmS a k) (w.committed a k) (w.state a k) v w.refund = some (cost', s'.refund) := e4
    rw [hgas] at this
    injection this with this
    injection this with _ this
    exact this.symm
  refine ⟨?_, ?_⟩
  · obtain ⟨L, hn, hL, hr⟩ := hok
    refine ⟨L, hn, ?_, ?_⟩
    · intro p
      rw [hL p, e1, e2]
      show w.committed p.1 p.2 ≠ 0#256 ∧ setAt (fun p : Addr × Word => w.state p.1 p.2) (a, k) v p = 0#256 ↔
        (w1.setState a k v).committed p.1 p.2 ≠ 0#256 ∧ (w1.setState a k v).state p.1 p.2 = 0#256
      rw [committed_setState _ _ _ _ _ _ (habs _ _), state_setState _ _ _ _ _ _ (habs _ _), hw.state]
      have hcom : w1.committed p.1 p.2 = w.committed p.1 p.2 := by
        unfold World.committed World.exist
        rw [hw.acct, hw.store]
      rw [hcom]
      unfold setAt
      have : (p = (a, k)) ↔ (p.1 = a ∧ p.2 = k) := by
        obtain ⟨x, y⟩ := p
        exact Prod.mk.injEq .. ▸ Iff.rfl
      simp only [this]
    · rw [e5] at hr
      exact hr
  · intro b j hb
    unfold World.setState at hb
    rw [acct_modify] at hb
    split at hb
    · cases hb
    · exact habs b j hb

theorem sstore_no_panic {m : Mach} {w : World} {a : Addr} {g : Nat} {k v : Word} (hs : Safe w) (hw : w.warmA a = true) : sstoreDyn m w a g k v ≠ .panic := by
  unfold sstoreDyn
  split
  · intro h; cases h
  · rw [if_neg (by rw [hw]; simp)]
    dsimp only
    obtain ⟨cost, s', hss, _⟩ := sstore_refund (k := (a, k)) (v := v) hs.refund
    obtain ⟨_, _, _, e4⟩ := sstore_orig hss
    have : sstoreGas 4800 (w.warmS a k) (w.committed a k) (w.state a k) v w.refund = some (cost, s'.refund) := e4
    rw [this]
    intro h; cases h

/-- The rule for panics. -/
theorem safety_rule {env : Env} (hT : PrecompilesTame env) : Rule env (fun a w => Safe w ∧ w.warmA a = true) (fun _ _ w w' => Keeps w w') True where
  refl _ _ w := Keeps.refl w
  trans h1 h2 := h1.trans h2
  pre h hk := ⟨hk.1 h.1, hk.2 _ h.2⟩
  warms _ h hr := Keeps.warms h hr
  sstore _ h := sstore_keeps h
  log _ _ := ⟨fun h => safe_of_same h rfl rfl rfl, fun _ h => h⟩
  selfdestruct b _ := Keeps.selfdestruct _ _ b
  nopanic _ h := sstore_no_panic h.1 h.2
  call h hw _ _ _ := ⟨⟨(Keeps.enter _ _ _ _).1 h.1, (Keeps.enter _ _ _ _).2 _ hw⟩, fun _ _ h3 => (Keeps.enter _ _ _ _).trans h3⟩
  pcall _ _ _ _ _ hp hok := (Keeps.enter _ _ _ _).trans (Keeps.tame (hT _ _ hp _ _ _ _ _ _ hok))
  pother _ _ hp hok := Keeps.tame (hT _ _ hp _ _ _ _ _ _ hok)
  static h hw := ⟨⟨(Keeps.addBalance _ _ _).1 h.1, hw⟩, fun _ _ h3 => (Keeps.addBalance _ _ _).trans h3⟩
  pstatic _ _ hp hok := (Keeps.addBalance _ _ _).trans (Keeps.tame (hT _ _ hp _ _ _ _ _ _ hok))
  create0 _ _ _ := (Keeps.setNonce _ _ _).trans (Keeps.warms (Warms.addr _ _) rfl)
  create _ h hw _ _ _ _ := ⟨⟨(Keeps.created _ _ _ _).1 h.1, hw⟩, fun _ _ h3 => (Keeps.created _ _ _ _).trans (h3.trans (Keeps.setCode _ _ _))⟩

/-! ### Theorems -/

/-- A call in a sound state with caller and callee in the access list never panics, and leaves a sound state. -/
theorem call_never_panics {env : Env} (hP : PrecompilesPay env) (hT : PrecompilesTame env) {fuel gas : Nat} (hg : gas < 2 ^ 64) (hf : gas < fuel) (depth : Nat) {ro : Bool}
    {caller addr : Addr} (input : List UInt8) {value : Int} {w : World} (hv : 0 ≤ value) (hro : ro = true → value = 0) (hs : Safe w) (hc : w.warmA caller = true) (ha : w.warmA addr = true) :
    let r := evmCall env (run env fuel) depth ro caller addr input gas value w
    r.status ≠ .panic ∧ Safe r.world := by
  have h := evmCall_obeys (run_obeys hP (safety_rule hT) fuel) (safety_rule hT) (depth := depth) (input := input) hg ⟨hs, hc⟩ ha hro hv
  have hnp := h.2 trivial
  exact ⟨hnp, (h.1 hnp (call_terminates hP hg hf depth ro caller addr input value w).1).1 hs⟩

/-- The same for creations. -/
theorem create_never_panics {env : Env} (hP : PrecompilesPay env) (hT : PrecompilesTame env) {fuel gas : Nat} (hg : gas < 2 ^ 64) (hf : gas < fuel) (depth : Nat)
    {caller addr : Addr} (code : List UInt8) {value : Int} {w : World} (hv : 0 ≤ value) (hs : Safe w) (hc : w.warmA caller = true) :
    let r := evmCreate env (run env fuel) depth false caller addr code gas value w
    r.status ≠ .panic ∧ Safe r.world := by
  have h := evmCreate_obeys (run_obeys hP (safety_rule hT) fuel) (safety_rule hT) (depth := depth) (b := addr) (code := code) trivial hg ⟨hs, hc⟩ hv
  have hnp := h.2 trivial
  exact ⟨hnp, (h.1 hnp (create_terminates hP hg hf depth false caller addr code value w).1).1 hs⟩

/-- A state at the start of a transaction is sound: nothing has been written yet. -/
theorem fresh_safe {w : World} (h : ∀ a c, w.acct a = some c → c.dirty = []) (habs : ∀ a k, w.acct a = none → w.store a k = 0#256) : Safe w := by
  refine ⟨⟨[], List.nodup_nil, ?_, by simp⟩, habs⟩
  intro p
  refine ⟨(fun h => by cases h), ?_⟩
  intro ⟨h1, h2⟩
  exfalso
  apply h1
  change w.committed p.1 p.2 = _
  change w.state p.1 p.2 = _ at h2
  unfold World.committed World.exist
  unfold World.state at h2
  cases ha : w.acct p.1 with
  | none => rfl
  | some c =>
    rw [ha] at h2
    dsimp only at h2
    rw [h _ _ ha] at h2
    exact h2

/-- The bounds that hold between any two instructions: at most 1024 words on the stack, and memory that is a whole number of paid words. -/
theorem step_bounds (env : Env) (ctx : Ctx) (w : World) {gas : Nat} {m m' : Mach} (hg : gas < 2 ^ 64) (hm : MachOk m)
    (h : (step env ctx w gas m).exec = .cont m' ∨ ∃ w', (step env ctx w gas m).exec = .contW m' w') : MachOk m' := by
  have hs := (step_facts env ctx w hg hm).2
  rcases h with h | ⟨w', h⟩ <;> rw [h] at hs <;> exact hs.2.1

/-! ### Examples -/

/-- A transaction's start: no slot written. -/
example : Safe (demoWorld [(0xaa#160, selfCaller)]) := by
  refine fresh_safe ?_ (fun _ _ _ => rfl)
  intro a c h
  have := KV.mem_of_get h
  simp only [demoWorld, List.map_cons, List.map_nil, List.mem_cons, List.not_mem_nil, or_false, Prod.mk.injEq] at this
  rcases this with ⟨_, rfl⟩ | ⟨_, rfl⟩ <;> rfl

/-- Writing, clearing and writing again (`PUSH1 v PUSH1 0 SSTORE` with 1, 0, 2), with the counter covering the refunds. -/
def writer : List UInt8 := [0x60, 1, 0x60, 0, 0x55, 0x60, 0, 0x60, 0, 0x55, 0x60, 2, 0x60, 0, 0x55, 0x00]
example : let r := evmCall demoEnv (run demoEnv 60000) 0 false 0x11#160 0xaa#160 [] 50000 0 { demoWorld [(0xaa#160, writer)] with store := fun _ _ => 5#256 }
    r.status = .ok ∧ r.world.refund = 0 ∧ r.world.state 0xaa#160 0#256 = 2#256 := by decide +kernel
/-- Stack overflow, stack underflow and huge memory offsets are errors, not panics. -/
example : (evmCall demoEnv (run demoEnv 60000) 0 false 0x11#160 0xaa#160 [] 50000 0 (demoWorld [(0xaa#160, [0x01])])).status = .fail := by decide +kernel
example : (evmCall demoEnv (run demoEnv 60000) 0 false 0x11#160 0xaa#160 [] 50000 0 (demoWorld [(0xaa#160, [0x60, 0, 0x19, 0x51])])).status = .fail := by decide +kernel

end VM
