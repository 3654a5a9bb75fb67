import Verif.VM.TerminationProps
/-!
# A rule for reasoning about executions

If a relation between states is kept by every instruction and by entering and leaving calls, it is kept by every execution.
-/
namespace VM

/-- The state in which a called contract starts (evm.go 185-210). -/
def enter (w : World) (a b : Addr) (v : Int) : World := (if w.exist b then w else w.createAccount b).transfer a b v

/-- The state after the steps of a creation that are kept if it fails, and the state in which the new contract starts (evm.go 440-470). -/
def created0 (w : World) (a b : Addr) : World := (w.setNonce a (add64 (w.nonce a) 1)).warmAddr b
def created (w1 : World) (a b : Addr) (v : Int) : World := ((w1.createAccount b).setNonce b 1).transfer a b v

/-- What has to be shown of a relation `R self readOnly before after`, given what holds at the beginning of a frame (`Pre self state`). `NP` is a switch: if
it is true then there must be no panic. `D` are the addresses at which contracts may be created. -/
structure Rule (env : Env) (Pre : Addr → World → Prop) (R : Addr → Bool → World → World → Prop) (NP : Prop) (D : Addr → Prop := fun _ => True) : Prop where
  derived : ∀ a w r, D (createAddress env a w r) := by exact fun _ _ _ => trivial
  refl : ∀ a ro w, R a ro w w
  trans : ∀ {a ro w1 w2 w3}, R a ro w1 w2 → R a ro w2 w3 → R a ro w1 w3
  pre : ∀ {a ro w w'}, Pre a w → R a ro w w' → Pre a w'
  warms : ∀ {a ro w w'}, Pre a w → Warms w w' → w'.refund = w.refund → R a ro w w'
  sstore : ∀ {a w w1 m g k v cost child last}, Pre a w → sstoreDyn m w a g k v = .ok cost child last w1 → R a false w (w1.setState a k v)
  log : ∀ {a w} l, Pre a w → R a false w (w.addLog l)
  selfdestruct : ∀ {a w} b, Pre a w → R a false w (w.selfdestruct a b)
  nopanic : ∀ {a w m g k v}, NP → Pre a w → sstoreDyn m w a g k v ≠ .panic
  call : ∀ {a b ro w v}, Pre a w → w.warmA b = true → (ro = true → v = 0) → 0 ≤ v → (v ≠ 0 → v ≤ w.balance a) →
    Pre b (enter w a b v) ∧ ∀ w3, ((enter w a b v).code b = [] → w3 = enter w a b v) → R b ro (enter w a b v) w3 → R a ro w w3
  pcall : ∀ {a b ro w v p i g}, Pre a w → w.warmA b = true → (ro = true → v = 0) → 0 ≤ v → (v ≠ 0 → v ≤ w.balance a) → env.precompile b = some p →
    (p a v i g false (enter w a b v)).ok = true → R a ro w (p a v i g false (enter w a b v)).world
  pother : ∀ {a b ro w v p i g}, Pre a w → 0 ≤ v → env.precompile b = some p → (p a v i g true w).ok = true → R a ro w (p a v i g true w).world
  static : ∀ {a b ro w}, Pre a w → w.warmA b = true → Pre b (w.addBalance b 0) ∧
    ∀ w3, ((w.addBalance b 0).code b = [] → w3 = w.addBalance b 0) → R b true (w.addBalance b 0) w3 → R a ro w w3
  pstatic : ∀ {a b ro w p i g}, Pre a w → w.warmA b = true → env.precompile b = some p → (p a 0 i g true (w.addBalance b 0)).ok = true →
    R a ro w (p a 0 i g true (w.addBalance b 0)).world
  create0 : ∀ {a w} b, Pre a w → ¬ add64 (w.nonce a) 1 < w.nonce a → R a false w (created0 w a b)
  create : ∀ {a b w v}, D b → Pre a w → w.warmA b = true → 0 ≤ v → v ≤ w.balance a → w.nonce b = 0 → w.code b = [] →
    Pre b (created w a b v) ∧ ∀ w3 code, R b false (created w a b v) w3 → R a false w (w3.setCode b code)

/-- What the rule gives for a result. -/
def Obeys (R : Addr → Bool → World → World → Prop) (NP : Prop) (a : Addr) (ro : Bool) (w : World) (r : Res) : Prop :=
  (r.status ≠ .panic → r.status ≠ .outOfFuel → R a ro w r.world) ∧ (NP → r.status ≠ .panic)

/-- For frames, only of those that end well. -/
def ObeysOk (R : Addr → Bool → World → World → Prop) (NP : Prop) (a : Addr) (ro : Bool) (w : World) (r : Res) : Prop :=
  (r.status = .ok → R a ro w r.world) ∧ (NP → r.status ≠ .panic)

def RunnerObeys (Pre : Addr → World → Prop) (R : Addr → Bool → World → World → Prop) (NP : Prop) (run : Runner) : Prop :=
  ∀ ctx w gas m, gas < 2 ^ 64 → MachOk m → Pre ctx.self w → ObeysOk R NP ctx.self ctx.readOnly w (run ctx w gas m)

section
variable {env : Env} {Pre : Addr → World → Prop} {R : Addr → Bool → World → World → Prop} {NP : Prop} {D : Addr → Prop}

theorem refused_obeys (H : Rule env Pre R NP D) (a : Addr) (ro : Bool) (w : World) (g : Nat) : Obeys R NP a ro w (refused w g) :=
  ⟨fun _ _ => H.refl _ _ _, fun _ => by simp [refused]⟩

/-- The end of a call: on an error the state of the snapshot `w`. -/
theorem finish_obeys (H : Rule env Pre R NP D) {a : Addr} {ro : Bool} {w0 w : World} {r : Res} (h0 : R a ro w0 w) (h : r.status = .ok → R a ro w0 r.world)
    (hp : NP → r.status ≠ .panic) : Obeys R NP a ro w0 (finish w r) := by
  refine ⟨?_, fun hn => by rw [finish_status]; exact hp hn⟩
  rw [finish_status]
  intro h1 h2
  unfold finish
  cases hs : r.status with
  | ok => exact h hs
  | reverted => exact h0
  | fail => exact h0
  | panic => exact absurd hs h1
  | outOfFuel => exact absurd hs h2

theorem ofPRes_ok {p : PRes} (h : (ofPRes p).status = .ok) : p.ok = true := by
  unfold ofPRes at h
  dsimp only at h
  split at h
  · assumption
  · split at h <;> cases h

theorem runCode_obeys {run : Runner} (hR : RunnerObeys Pre R NP run) (H : Rule env Pre R NP D) {ctx : Ctx} {w : World} {gas : Nat} (hg : gas < 2 ^ 64) (hp : Pre ctx.self w) :
    ObeysOk R NP ctx.self ctx.readOnly w (runCode run ctx w gas) := by
  unfold runCode
  split
  · exact ⟨fun _ => H.refl _ _ _, fun _ => by simp⟩
  · exact hR ctx w gas _ hg machOk_init hp

/-- An account without code does nothing. -/
theorem runCode_empty (run : Runner) {ctx : Ctx} {w : World} {gas : Nat} (h : ctx.code = []) : (runCode run ctx w gas).world = w := by
  unfold runCode
  rw [if_pos h]

theorem evmCall_obeys {run : Runner} (hR : RunnerObeys Pre R NP run) (H : Rule env Pre R NP D) {depth gas : Nat} {ro : Bool} {a b : Addr} {input : List UInt8} {v : Int} {w : World}
    (hg : gas < 2 ^ 64) (hp : Pre a w) (hw : w.warmA b = true) (hro : ro = true → v = 0) (hv : 0 ≤ v) :
    Obeys R NP a ro w (evmCall env run depth ro a b input gas v w) := by
  unfold evmCall
  split
  · exact refused_obeys H _ _ _ _
  · split
    · exact refused_obeys H _ _ _ _
    · split
      · exact refused_obeys H _ _ _ _
      · rename_i h3
        have hbal : v ≠ 0 → v ≤ w.balance a := fun h => Int.le_of_not_gt fun h' => h3 ⟨h, h'⟩
        split
        · exact ⟨fun _ _ => H.refl _ _ _, fun _ => by simp⟩
        · refine finish_obeys H (H.refl _ _ _) ?_ ?_
          · cases hpre : env.precompile b with
            | some p => exact fun h => H.pcall hp hw hro hv hbal hpre (ofPRes_ok h)
            | none =>
              have hc := H.call hp hw hro hv hbal
              have := runCode_obeys hR H (ctx := { self := b, caller := a, value := v, input := input, code := (enter w a b v).code b, depth := depth + 1, readOnly := ro })
                (w := enter w a b v) (gas := gas) hg hc.1
              exact fun h => hc.2 _ (fun he => runCode_empty run he) (this.1 h)
          · cases hpre : env.precompile b with
            | some p => exact fun _ => (ofPRes_status _).2
            | none =>
              have hc := H.call hp hw hro hv hbal
              exact (runCode_obeys hR H (ctx := { self := b, caller := a, value := v, input := input, code := (enter w a b v).code b, depth := depth + 1, readOnly := ro })
                (w := enter w a b v) (gas := gas) hg hc.1).2

theorem evmCallCode_obeys {run : Runner} (hR : RunnerObeys Pre R NP run) (H : Rule env Pre R NP D) {depth gas : Nat} {ro : Bool} {a b : Addr} {input : List UInt8} {v : Int} {w : World}
    (hg : gas < 2 ^ 64) (hp : Pre a w) (hv : 0 ≤ v) : Obeys R NP a ro w (evmCallCode env run depth ro a b input gas v w) := by
  unfold evmCallCode
  split
  · exact refused_obeys H _ _ _ _
  · split
    · exact refused_obeys H _ _ _ _
    · split
      · exact refused_obeys H _ _ _ _
      · have := runCode_obeys hR H (ctx := { self := a, caller := a, value := v, input := input, code := w.code b, depth := depth + 1, readOnly := ro }) (w := w) (gas := gas) hg hp
        refine finish_obeys H (H.refl _ _ _) ?_ ?_
        · cases hpre : env.precompile b with
          | some p => exact fun h => H.pother hp hv hpre (ofPRes_ok h)
          | none => exact this.1
        · cases hpre : env.precompile b with
          | some p => exact fun _ => (ofPRes_status _).2
          | none => exact this.2

theorem evmDelegate_obeys {run : Runner} (hR : RunnerObeys Pre R NP run) (H : Rule env Pre R NP D) {gas : Nat} {ctx : Ctx} {b : Addr} {input : List UInt8} {w : World}
    (hg : gas < 2 ^ 64) (hp : Pre ctx.self w) : Obeys R NP ctx.self ctx.readOnly w (evmDelegate env run ctx b input gas w) := by
  unfold evmDelegate
  split
  · exact refused_obeys H _ _ _ _
  · split
    · exact refused_obeys H _ _ _ _
    · have := runCode_obeys hR H
        (ctx := { self := ctx.self, caller := ctx.caller, value := ctx.value, input := input, code := w.code b, depth := ctx.depth + 1, readOnly := ctx.readOnly }) (w := w) (gas := gas) hg hp
      refine finish_obeys H (H.refl _ _ _) ?_ ?_
      · cases hpre : env.precompile b with
        | some p => exact fun h => H.pother hp (Int.le_refl 0) hpre (ofPRes_ok h)
        | none => exact this.1
      · cases hpre : env.precompile b with
        | some p => exact fun _ => (ofPRes_status _).2
        | none => exact this.2

theorem evmStatic_obeys {run : Runner} (hR : RunnerObeys Pre R NP run) (H : Rule env Pre R NP D) {depth gas : Nat} {ro : Bool} {a b : Addr} {input : List UInt8} {w : World}
    (hg : gas < 2 ^ 64) (hp : Pre a w) (hw : w.warmA b = true) : Obeys R NP a ro w (evmStatic env run depth a b input gas w) := by
  unfold evmStatic
  split
  · exact refused_obeys H _ _ _ _
  · split
    · exact refused_obeys H _ _ _ _
    · have hs := H.static (ro := ro) hp hw
      have := runCode_obeys hR H (ctx := { self := b, caller := a, value := 0, input := input, code := (w.addBalance b 0).code b, depth := depth + 1, readOnly := true })
        (w := w.addBalance b 0) (gas := gas) hg hs.1
      refine finish_obeys H (H.refl _ _ _) ?_ ?_
      · cases hpre : env.precompile b with
        | some p => exact fun h => H.pstatic hp hw hpre (ofPRes_ok h)
        | none => exact fun h => hs.2 _ (fun he => runCode_empty run he) (this.1 h)
      · cases hpre : env.precompile b with
        | some p => exact fun _ => (ofPRes_status _).2
        | none => exact this.2

theorem deposit_cases (b : Addr) (r : Res) :
    ((deposit b r).status = .ok → r.status = .ok ∧ (deposit b r).world = r.world.setCode b r.ret) ∧ ((deposit b r).status = .panic → r.status = .panic) := by
  unfold deposit
  cases hs : r.status with
  | ok =>
    dsimp only
    split
    · exact ⟨(fun h => by cases h), (fun h => by cases h)⟩
    · split
      · exact ⟨(fun h => by cases h), (fun h => by cases h)⟩
      · split
        · exact ⟨(fun h => by cases h), (fun h => by cases h)⟩
        · exact ⟨fun _ => ⟨rfl, rfl⟩, (fun h => by cases h)⟩
  | reverted => exact ⟨(fun h => by rw [hs] at h; cases h), (fun h => by rw [hs] at h; cases h)⟩
  | fail => exact ⟨(fun h => by rw [hs] at h; cases h), (fun h => by rw [hs] at h; cases h)⟩
  | panic => exact ⟨(fun h => by rw [hs] at h; cases h), fun _ => rfl⟩
  | outOfFuel => exact ⟨(fun h => by rw [hs] at h; cases h), (fun h => by rw [hs] at h; cases h)⟩

theorem evmCreate_obeys {run : Runner} (hR : RunnerObeys Pre R NP run) (H : Rule env Pre R NP D) {depth gas : Nat} {a b : Addr} {code : List UInt8} {v : Int} {w : World}
    (hD : D b) (hg : gas < 2 ^ 64) (hp : Pre a w) (hv : 0 ≤ v) : Obeys R NP a false w (evmCreate env run depth false a b code gas v w) := by
  unfold evmCreate
  split
  · exact refused_obeys H _ _ _ _
  · split
    · exact refused_obeys H _ _ _ _
    · split
      · exact refused_obeys H _ _ _ _
      · rename_i hbal
        split
        · exact refused_obeys H _ _ _ _
        · rename_i hnonce
          have h0 := H.create0 b hp hnonce
          have hp1 := H.pre hp h0
          dsimp only
          have hb1 : (created0 w a b).balance a = w.balance a := by
            unfold created0 World.balance World.warmAddr World.setNonce World.modify World.acct
            dsimp only
            rw [KV.get_set, if_pos rfl]
            cases KV.get w.accts a <;> rfl
          have hw1 : (created0 w a b).warmA b = true := setAt_same _ _ _
          rw [show ((w.setNonce a (add64 (w.nonce a) 1)).warmAddr b) = created0 w a b from rfl]
          generalize created0 w a b = w1 at *
          split
          · exact ⟨fun _ _ => h0, fun _ => by simp [refused]⟩
          · rename_i hfresh
            have hn : w1.nonce b = 0 := Decidable.byContradiction fun h => hfresh (.inl h)
            have hc : w1.code b = [] := Decidable.byContradiction fun h => hfresh (.inr h)
            have hcr := H.create (v := v) hD hp1 hw1 hv (by rw [hb1]; exact Int.le_of_not_gt hbal) hn hc
            have := runCode_obeys hR H (ctx := { self := b, caller := a, value := v, input := [], code := code, depth := depth + 1, readOnly := false })
              (w := created w1 a b v) (gas := gas) hg hcr.1
            refine finish_obeys H h0 ?_ ?_
            · intro h
              obtain ⟨hok, hworld⟩ := (deposit_cases b _).1 h
              rw [hworld]
              exact H.trans h0 (hcr.2 _ _ (this.1 hok))
            · intro hnp h
              exact this.2 hnp ((deposit_cases b _).2 h)

theorem doCall_obeys {run : Runner} (hR : RunnerObeys Pre R NP run) (H : Rule env Pre R NP D) {ctx : Ctx} {r : CallReq} {child gas : Nat} {w : World} (hg : gas < 2 ^ 64)
    (hc : child + (if r.value = 0#256 then 0 else 2300) ≤ gas) (hp : Pre ctx.self w) (hw : w.warmA r.addr = true)
    (hro : r.kind = .call → ctx.readOnly = true → r.value = 0#256) : Obeys R NP ctx.self ctx.readOnly w (doCall env run ctx r child w) := by
  have hlt := Nat.lt_of_le_of_lt hc hg
  have hgas : (if r.value = 0#256 then child else add64 child 2300) < 2 ^ 64 := by
    split
    · omega
    · exact Nat.mod_lt _ (by decide)
  have hchild : child < 2 ^ 64 := by omega
  unfold doCall
  dsimp only
  cases hk : r.kind with
  | call => exact evmCall_obeys hR H hgas hp hw (fun h => by rw [hro hk h]; rfl) (Int.natCast_nonneg _)
  | callcode => exact evmCallCode_obeys hR H hgas hp (Int.natCast_nonneg _)
  | delegate => exact evmDelegate_obeys hR H hchild hp
  | static => exact evmStatic_obeys hR H hchild hp hw

/-- The rule: every execution obeys the relation. -/
theorem run_obeys (hP : PrecompilesPay env) (H : Rule env Pre R NP D) : ∀ fuel, RunnerObeys Pre R NP (run env fuel) := by
  intro fuel
  induction fuel with
  | zero => intro ctx w gas m _ _ _; exact ⟨(fun h => by cases h), fun _ => by simp [run]⟩
  | succ fuel ih =>
    intro ctx w gas m hg hm hp
    have hs := step_facts env ctx w hg hm
    unfold run
    dsimp only
    generalize step env ctx w gas m = s at hs
    obtain ⟨hle, hs⟩ := hs
    have chain : ∀ {w1 : World} {r : Res}, R ctx.self ctx.readOnly w w1 → ObeysOk R NP ctx.self ctx.readOnly w1 r → ObeysOk R NP ctx.self ctx.readOnly w r :=
      fun h1 h2 => ⟨fun h => H.trans h1 (h2.1 h), h2.2⟩
    cases hx : s.exec with
    | cont m' =>
      rw [hx] at hs
      obtain ⟨h1, h2, h3, h4⟩ := hs
      have hr := H.warms (ro := ctx.readOnly) hp h3 h4
      exact chain hr (ih ctx s.world s.gas m' (Nat.lt_trans h1 hg) h2 (H.pre hp hr))
    | contW m' w' =>
      rw [hx] at hs
      obtain ⟨h1, h2, hro, h3⟩ := hs
      have hr : R ctx.self ctx.readOnly w w' := by
        rw [hro]
        rcases h3 with ⟨h3, h4, l, h5⟩ | ⟨k, v, g, cost, child, last, h3, h4⟩
        · have hr := H.warms (ro := false) hp h3 h4
          rw [h5]
          exact H.trans hr (H.log l (H.pre hp hr))
        · rw [h4]
          exact H.sstore hp h3
      exact chain hr (ih ctx w' s.gas m' (Nat.lt_trans h1 hg) h2 (H.pre hp hr))
    | stop ret =>
      rw [hx] at hs
      exact ⟨fun _ => H.warms hp hs.1 hs.2, fun _ => by simp⟩
    | stopW w' =>
      rw [hx] at hs
      obtain ⟨hro, h1, h2, b, h3⟩ := hs
      refine ⟨fun _ => ?_, fun _ => by simp⟩
      dsimp only
      rw [hro, h3]
      have hr := H.warms (ro := false) hp h1 h2
      exact H.trans hr (H.selfdestruct b (H.pre hp hr))
    | revert ret => exact ⟨(fun h => by cases h), fun _ => by simp⟩
    | fail => exact ⟨(fun h => by cases h), fun _ => by simp⟩
    | panic =>
      rw [hx] at hs
      obtain ⟨k, v, g, h⟩ := hs
      exact ⟨(fun h => by cases h), fun hn => absurd h (H.nopanic hn hp)⟩
    | call r m' =>
      rw [hx] at hs
      obtain ⟨h1, h2, h3, h4, h5, h6, h7, h8, h9⟩ := hs
      have hr := H.warms (ro := ctx.readOnly) hp h7 h8
      have hp1 := H.pre hp hr
      have hcost : s.child + (if r.value = 0#256 then 0 else 2300) ≤ gas := by omega
      have hpay := doCall_pays hP (run_pays hP fuel) (ctx := ctx) (w := s.world) hg hcost h6
      have hob := doCall_obeys ih H (ctx := ctx) (r := r) (child := s.child) (w := s.world) hg hcost hp1 h9 h5
      dsimp only
      generalize doCall env (run env fuel) ctx r s.child s.world = res at hpay hob
      split
      · rename_i hst
        refine ⟨fun h => ?_, hob.2⟩
        rcases hst with h' | h' <;> rw [h'] at h <;> cases h
      · rename_i hst
        have hr2 := hob.1 (fun h => hst (.inl h)) (fun h => hst (.inr h))
        cases ha : afterCall m' r res with
        | none =>
          exfalso
          unfold afterCall at ha
          obtain ⟨mem, hmem⟩ := memSet_some (value := res.ret) h4
          dsimp only at ha
          rw [hmem] at ha
          split at ha <;> cases ha
        | some m'' =>
          have e : add64 s.gas res.gas < 2 ^ 64 := Nat.mod_lt _ (by decide)
          exact chain (H.trans hr hr2) (ih ctx res.world _ m'' e (afterCall_ok ha h2 h3) (H.pre hp1 hr2))
    | create r m' =>
      rw [hx] at hs
      obtain ⟨h1, h2, h3, hro, h7, h8⟩ := hs
      have hr := H.warms (ro := ctx.readOnly) hp h7 h8
      have hp1 := H.pre hp hr
      have hob := evmCreate_obeys ih H (depth := ctx.depth) (gas := s.gas - s.gas / 64) (b := createAddress env ctx.self s.world r) (code := r.code)
        (v := (r.value.toNat : Int)) (w := s.world) (H.derived _ _ _) (by omega) hp1 (Int.natCast_nonneg _)
      dsimp only
      rw [hro] at hr chain ⊢
      generalize evmCreate env (run env fuel) ctx.depth false ctx.self (createAddress env ctx.self s.world r) r.code (s.gas - s.gas / 64) (r.value.toNat : Int) s.world = res at hob
      split
      · rename_i hst
        refine ⟨fun h => ?_, hob.2⟩
        rcases hst with h' | h' <;> rw [h'] at h <;> cases h
      · rename_i hst
        have hr2 := hob.1 (fun h => hst (.inl h)) (fun h => hst (.inr h))
        have := ih ctx res.world (add64 (s.gas - (s.gas - s.gas / 64)) res.gas) (afterCreate m' (createAddress env ctx.self s.world r) res) (Nat.mod_lt _ (by decide)) ⟨h2, h3⟩ (H.pre hp1 hr2)
        rw [hro] at this
        exact chain (H.trans hr hr2) this

end
end VM
