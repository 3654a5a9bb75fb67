import Verif.VM.SafetyProps
/-!
# Static calls change nothing (C68)

`STATICCALL` promises that the callee and everything it calls leave the state as it is. This holds as long as the precompiled contracts reached by plain calls
do not write: a plain call hands `readOnly = false` to a precompiled contract even inside a static call, and the staking, bridge, governance … contracts write
then. `static_call_can_write` shows the violation, `static_call_changes_nothing_partial` what is left.
-/
namespace VM

/-! ### Specification -/

/-- Nothing that a contract or a user can read differs (the gas prices of the access list may). -/
structure SameState (w w' : World) : Prop where
  balance : ∀ a, w'.balance a = w.balance a
  nonce : ∀ a, w'.nonce a = w.nonce a
  code : ∀ a, w'.code a = w.code a
  state : ∀ a k, w'.state a k = w.state a k
  suicided : ∀ a, w'.suicided a = w.suicided a
  logs : w'.logs = w.logs
  refund : w'.refund = w.refund
  burnt : w'.burnt = w.burnt

/-- A precompiled contract that respects its flag `readOnly`. -/
def PrecompilesRespectFlag (env : Env) : Prop :=
  ∀ a p, env.precompile a = some p → ∀ c v i g w, (p c v i g true w).ok = true → SameState w (p c v i g true w).world

/-- The full promise. It is false of the code: see `static_call_can_write`. -/
def StaticPromise (env : Env) : Prop :=
  ∀ fuel gas depth caller addr input w, gas < 2 ^ 64 → gas < fuel → Safe w → w.warmA caller = true → w.warmA addr = true →
    SameState w (evmStatic env (run env fuel) depth caller addr input gas w).world

/-- What is needed in addition: without value precompiled contracts write nothing, whatever their flag. -/
def PrecompilesPure (env : Env) : Prop :=
  ∀ a p, env.precompile a = some p → ∀ c i g w, (p c 0 i g false w).ok = true → SameState w (p c 0 i g false w).world

/-! ### Proof -/

theorem SameState.refl (w : World) : SameState w w := ⟨fun _ => rfl, fun _ => rfl, fun _ => rfl, fun _ _ => rfl, fun _ => rfl, rfl, rfl, rfl⟩
theorem SameState.trans {w1 w2 w3 : World} (h1 : SameState w1 w2) (h2 : SameState w2 w3) : SameState w1 w3 :=
  ⟨fun a => (h2.balance a).trans (h1.balance a), fun a => (h2.nonce a).trans (h1.nonce a), fun a => (h2.code a).trans (h1.code a),
    fun a k => (h2.state a k).trans (h1.state a k), fun a => (h2.suicided a).trans (h1.suicided a), h2.logs.trans h1.logs, h2.refund.trans h1.refund, h2.burnt.trans h1.burnt⟩

/-- A change of an account that leaves its fields, creating it empty if there was none. -/
theorem SameState.modify {w : World} (hs : ∀ k, w.acct a = none → w.store a k = 0#256) {f : Acct → Acct} (hf : f ((w.acct a).getD {}) = (w.acct a).getD {}) :
    SameState w (w.modify a f) := by
  have key : ∀ b, (w.modify a f).acct b = w.acct b ∨ (w.acct b = none ∧ b = a ∧ (w.modify a f).acct b = some {}) := by
    intro b
    rw [acct_modify]
    by_cases e : b = a
    · subst e
      rw [if_pos rfl, hf]
      cases w.acct b with
      | none => exact .inr ⟨rfl, rfl, rfl⟩
      | some c => exact .inl rfl
    · rw [if_neg e]
      exact .inl rfl
  refine ⟨?_, ?_, ?_, ?_, ?_, rfl, rfl, rfl⟩
  · intro b
    unfold World.balance
    rcases key b with h | ⟨h, _, h'⟩ <;> rw [h] <;> try rw [h'] <;> rfl
  · intro b
    unfold World.nonce
    rcases key b with h | ⟨h, _, h'⟩ <;> rw [h] <;> try rw [h'] <;> rfl
  · intro b
    unfold World.code
    rcases key b with h | ⟨h, _, h'⟩ <;> rw [h] <;> try rw [h'] <;> rfl
  · intro b k
    unfold World.state
    rcases key b with h | ⟨h, e, h'⟩
    · rw [h]; rfl
    · rw [h, h']
      subst e
      exact hs k h
  · intro b
    unfold World.suicided
    rcases key b with h | ⟨h, _, h'⟩ <;> rw [h] <;> try rw [h'] <;> rfl

theorem acct_eta_balance (c : Acct) (v : Int) (h : v = c.balance) : { c with balance := v } = c := by
  subst h; rfl

theorem SameState.addZero {w : World} (hs : Safe w) (a : Addr) : SameState w (w.addBalance a 0) := by
  refine SameState.modify (fun k => hs.absent a k) ?_
  exact acct_eta_balance _ _ (Int.add_zero _)

theorem SameState.subZero {w : World} (hs : Safe w) (a : Addr) : SameState w (w.subBalance a 0) := by
  refine SameState.modify (fun k => hs.absent a k) ?_
  exact acct_eta_balance _ _ (Int.sub_zero _)

theorem SameState.createAbsent {w : World} (hs : Safe w) {a : Addr} (ha : w.exist a = false) : SameState w (w.createAccount a) := by
  refine SameState.modify (fun k => hs.absent a k) ?_
  unfold World.exist at ha
  rw [Option.isSome_eq_false_iff, Option.isNone_iff_eq_none] at ha
  rw [ha]
  rfl

theorem SameState.enter {w : World} (hs : Safe w) (a b : Addr) : SameState w (enter w a b 0) := by
  unfold VM.enter World.transfer
  have hsub : ∀ w : World, Safe w → Safe (w.subBalance a 0) := fun w h =>
    (Keeps.modify w a (fun c => { c with balance := c.balance - 0 }) (fun _ => .inl rfl)).1 h
  split
  · exact (SameState.subZero hs a).trans (SameState.addZero (hsub _ hs) b)
  · rename_i h
    have h1 := (Keeps.createAccount w b).1 hs
    exact (SameState.createAbsent hs (by simpa using h)).trans ((SameState.subZero h1 a).trans (SameState.addZero (hsub _ h1) b))

theorem SameState.warms {w w' : World} (h : Warms w w') (hr : w'.refund = w.refund) : SameState w w' := by
  refine ⟨?_, ?_, ?_, h.state, ?_, h.logs, hr, h.burnt⟩
  · exact h.balance
  · intro a; unfold World.nonce; rw [h.acct]
  · intro a; unfold World.code; rw [h.acct]
  · intro a; unfold World.suicided; rw [h.acct]

/-- The rule: states stay sound, and in read-only frames they stay the same. -/
def StaticRel (_ : Addr) (ro : Bool) (w w' : World) : Prop := Keeps w w' ∧ (Safe w → ro = true → SameState w w')

theorem static_rule {env : Env} (hT : PrecompilesTame env) (hF : PrecompilesRespectFlag env) (hU : PrecompilesPure env) :
    Rule env (fun a w => Safe w ∧ w.warmA a = true) StaticRel True where
  refl _ _ w := ⟨Keeps.refl w, fun _ _ => SameState.refl w⟩
  trans h1 h2 := ⟨h1.1.trans h2.1, fun hs hr => (h1.2 hs hr).trans (h2.2 (h1.1.1 hs) hr)⟩
  pre h hk := (safety_rule hT).pre (ro := false) h hk.1
  warms h hw hr := ⟨(safety_rule hT).warms (ro := false) h hw hr, fun _ _ => SameState.warms hw hr⟩
  sstore h hd := ⟨(safety_rule hT).sstore h hd, fun _ h => by cases h⟩
  log l h := ⟨(safety_rule hT).log l h, fun _ h => by cases h⟩
  selfdestruct b h := ⟨(safety_rule hT).selfdestruct b h, fun _ h => by cases h⟩
  nopanic hn h := (safety_rule hT).nopanic hn h
  call {a b ro w v} h hw hro hv hb :=
    ⟨((safety_rule hT).call h hw hro hv hb).1, fun w3 he h3 => ⟨((safety_rule hT).call h hw hro hv hb).2 w3 he h3.1, fun hs hr => by
      have hv0 := hro hr
      subst hv0
      exact (SameState.enter hs a b).trans (h3.2 ((Keeps.enter w a b 0).1 hs) hr)⟩⟩
  pcall {a b ro w v p i g} h hw hro hv hb hp hok := ⟨(safety_rule hT).pcall h hw hro hv hb hp hok, fun hs hr => by
      have hv0 := hro hr
      subst hv0
      exact (SameState.enter hs a b).trans (hU b p hp _ _ _ _ hok)⟩
  pother {a b ro w v p i g} h hv hp hok := ⟨(safety_rule hT).pother (ro := false) h hv hp hok, fun _ _ => hF b p hp _ _ _ _ _ hok⟩
  static {a b ro w} h hw := ⟨((safety_rule hT).static (ro := false) h hw).1, fun w3 he h3 => ⟨((safety_rule hT).static (ro := false) h hw).2 w3 he h3.1, fun hs _ =>
      (SameState.addZero hs b).trans (h3.2 ((Keeps.addBalance w b 0).1 hs) rfl)⟩⟩
  pstatic {a b ro w p i g} h hw hp hok := ⟨(safety_rule hT).pstatic (ro := false) h hw hp hok, fun hs _ => (SameState.addZero hs b).trans (hF b p hp _ _ _ _ _ hok)⟩
  create0 b h hn := ⟨(safety_rule hT).create0 b h hn, fun _ h => by cases h⟩
  create hD h hw hv hb hn hc := ⟨((safety_rule hT).create hD h hw hv hb hn hc).1, fun w3 code h3 => ⟨((safety_rule hT).create hD h hw hv hb hn hc).2 w3 code h3.1, fun _ h => by cases h⟩⟩

/-! ### Theorems -/

/-- If precompiled contracts called without value write nothing, a static call changes nothing, whatever code it runs. -/
theorem static_call_changes_nothing_partial {env : Env} (hP : PrecompilesPay env) (hT : PrecompilesTame env) (hF : PrecompilesRespectFlag env) (hU : PrecompilesPure env) :
    StaticPromise env := by
  intro fuel gas depth caller addr input w hg hf hs hc ha
  have h := evmStatic_obeys (run_obeys hP (static_rule hT hF hU) fuel) (static_rule hT hF hU) (depth := depth) (ro := true) (input := input) hg ⟨hs, hc⟩ ha
  refine (h.1 (h.2 trivial) ?_).2 hs rfl
  exact (evmStatic_pays hP (run_pays hP fuel) hg).2 hf

/-- The demo network with a precompiled contract that keeps a record of its calls (a log), and refuses when its flag is set — as staking, bridge and governance
do (precompiles/common/precompile.go 126). -/
def recorder : Addr → Int → List UInt8 → Nat → Bool → World → PRes := fun c _ i g ro w =>
  if ro then ⟨w, 0, [], false, false⟩ else ⟨w.addLog ⟨c, [], i⟩, g - 10, [], true, false⟩
def recorderEnv : Env := { demoEnv with precompile := fun a => if a = 0x900#160 then some recorder else none }

/-- `PUSH1 0` (five times) `PUSH2 0x0900 GAS CALL STOP`: calls the precompiled contract. -/
def callRecorder : List UInt8 := [0x60, 0, 0x60, 0, 0x60, 0, 0x60, 0, 0x60, 0, 0x61, 9, 0, 0x5a, 0xf1, 0x00]
def recorderWorld : World := { demoWorld [(0xaa#160, callRecorder)] with warmA := fun a => decide (a = 0x11#160 ∨ a = 0xaa#160 ∨ a = 0x900#160) }

/-- The promise is broken: the recorder respects its flag, but a static call of a contract that calls it makes it write. -/
theorem static_call_can_write : PrecompilesPay recorderEnv ∧ PrecompilesTame recorderEnv ∧ PrecompilesRespectFlag recorderEnv ∧ ¬ StaticPromise recorderEnv := by
  have hget : ∀ a p, recorderEnv.precompile a = some p → p = recorder := by
    intro a p h
    simp only [recorderEnv] at h
    split at h
    · injection h with h; exact h.symm
    · cases h
  refine ⟨?_, ?_, ?_, ?_⟩
  · intro a p h c v i g ro w
    cases hget a p h
    unfold recorder
    split
    · exact Nat.zero_le _
    · exact Nat.sub_le _ _
  · intro a p h c v i g ro w hok
    cases hget a p h
    cases ro with
    | true => cases hok
    | false => exact ⟨rfl, rfl, fun _ h => h, fun a c h => ⟨c, h, rfl⟩⟩
  · intro a p h c v i g w hok
    cases hget a p h
    cases hok
  · intro h
    have h1 := h 20001 20000 0 0x11#160 0xaa#160 [] recorderWorld (by decide) (by decide) ?_ (by decide +kernel) (by decide +kernel)
    · have h2 := h1.logs
      revert h2
      decide +kernel
    · refine fresh_safe ?_ (fun _ _ _ => rfl)
      intro a c h
      have := KV.mem_of_get h
      simp only [recorderWorld, demoWorld, List.map_cons, List.map_nil, List.mem_cons, List.not_mem_nil, or_false, Prod.mk.injEq] at this
      rcases this with ⟨_, rfl⟩ | ⟨_, rfl⟩ <;> rfl

/-! ### Examples -/

/-- The hypotheses of the theorem hold for networks without writing precompiled contracts. -/
example : PrecompilesPay demoEnv ∧ PrecompilesTame demoEnv ∧ PrecompilesRespectFlag demoEnv ∧ PrecompilesPure demoEnv :=
  ⟨(fun _ _ h => nomatch h), (fun _ _ h => nomatch h), (fun _ _ h => nomatch h), (fun _ _ h => nomatch h)⟩
/-- A contract that stores is stopped in a static call, and runs in a plain one. -/
example : (evmStatic demoEnv (run demoEnv 60000) 0 0x11#160 0xaa#160 [] 50000 (demoWorld [(0xaa#160, writer)])).status = .fail := by decide +kernel
example : (evmCall demoEnv (run demoEnv 60000) 0 false 0x11#160 0xaa#160 [] 50000 0 (demoWorld [(0xaa#160, writer)])).status = .ok := by decide +kernel

end VM
