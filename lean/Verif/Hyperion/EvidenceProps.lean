import Verif.Hyperion.EvidenceLemmas
/-!
# C110: evidence of bad signatures
-/
namespace Evidence

/-! ## A small chain for the examples: two bridges, one validator with the address 50 on both -/

def demoBatch : Batch := { bridge := 1, nonce := 4, timeout := 900, token := 77, txs := [{ id := 3, sender := 8, dest := 9, amount := 100, fee := 1 }] }
def demoFake : Batch := { demoBatch with txs := [{ id := 3, sender := 8, dest := 66, amount := 100000, fee := 1 }] }

/-- A stand-in for the hash; signature `n` is one by address 50 over the hash `n`. -/
def demoEnv : Env :=
  { keccak := fun p => match p with
      | .batch amounts dests _ nonce token timeout => 1 + amounts.sum + 7 * dests.sum + nonce + token + timeout
      | .valset .. => 0
    recover := fun c sig => if c = sig ∧ c = 1145 then some 50 else none
    unit := 10 }

def demoOps : List Op :=
  [.stake 5 (some .bonded) 1000, .params 1 (some 100000000000000000), .params 2 (some 100000000000000000), .register 1 5 50, .register 2 5 50, .ask (.batch demoBatch)]

example : checkpoint demoEnv (.batch demoBatch) = 1145 := by decide

/-! ## Decisions -/

/-- When evidence is accepted, and against whom. -/
theorem convicted_iff (e : Env) (s : State) (x : Subject) (sig : Sig) (v : Val) : (∃ s', evidence e s x sig = .slashed s' v) ↔ Convicts e s x sig v := by
  constructor
  · rintro ⟨s', h⟩
    obtain ⟨a, st, f, h1, h2, h3, h4, h5, h6, _⟩ := evidence_slashed h
    refine ⟨h1, ⟨a, h2, h3⟩, ?_, by rw [h5]; rfl⟩
    cases st with
    | bonded => exact Or.inl h4
    | unbonding => exact Or.inr h4
    | unbonded => exact absurd rfl h6
  · rintro ⟨h1, ⟨a, h2, h3⟩, h4, h5⟩
    obtain ⟨f, hf⟩ := Option.isSome_iff_exists.1 h5
    rcases h4 with h4 | h4
    · exact ⟨_, evidence_of h1 h2 h3 h4 hf (by intro h; cases h)⟩
    · exact ⟨_, evidence_of h1 h2 h3 h4 hf (by intro h; cases h)⟩

/-- What it costs: a bonded validator loses the fraction of its whole units, rounded down, an unbonding one nothing; nothing else changes, so that the validator goes on
as before and the evidence is not remembered. -/
theorem cost (e : Env) (s s' : State) (x : Subject) (sig : Sig) (v : Val) (h : evidence e s x sig = .slashed s' v) :
    s' = { s with tokens := s'.tokens } ∧ (∀ w, w ≠ v → s'.tokens w = s.tokens w) ∧
    (s.status v = some .unbonding → s'.tokens v = s.tokens v) ∧
    (s.status v = some .bonded → ∀ f, s.fraction x.bridge = some f → f ≤ 10 ^ 18 →
      s'.tokens v + s.tokens v / e.unit * e.unit * f / 10 ^ 18 = s.tokens v) := by
  obtain ⟨a, st, f, _, _, _, h4, h5, _, rfl⟩ := evidence_slashed h
  refine ⟨rfl, fun w hw => by simp [hw], ?_, ?_⟩
  · intro hu
    rw [h4] at hu
    cases hu
    simp [burn, power]
  · intro hb f' hf' hle
    rw [h4] at hb
    cases hb
    rw [h5] at hf'
    cases hf'
    have h18 : (10 : Nat) ^ 18 = 1000000000000000000 := by decide
    rw [h18] at *
    have hq : s.tokens v / e.unit * e.unit ≤ s.tokens v := Nat.div_mul_le_self _ _
    have hle2 : s.tokens v / e.unit * e.unit * f / 1000000000000000000 ≤ s.tokens v := by
      have h1 : s.tokens v / e.unit * e.unit * f ≤ s.tokens v * 1000000000000000000 := Nat.mul_le_mul hq hle
      exact Nat.le_trans (Nat.div_le_div_right h1) (Nat.le_of_eq (Nat.mul_div_cancel _ (by decide)))
    simp only [if_true, burn, power]
    rw [Nat.min_eq_left hle2]
    omega

/-- Evidence for a bridge without parameters against a registered validator is a panic. -/
theorem panics_iff (e : Env) (s : State) (x : Subject) (sig : Sig) : evidence e s x sig = .panics ↔
    (x.bridge, checkpoint e x) ∉ s.past ∧ s.fraction x.bridge = none ∧
      ∃ a v, e.recover (checkpoint e x) sig = some a ∧ s.byEth x.bridge a = some v ∧ (s.status v).isSome = true := by
  unfold evidence
  by_cases hp : (x.bridge, checkpoint e x) ∈ s.past
  · simp [hp]
  · rw [if_neg hp]
    cases ha : e.recover (checkpoint e x) sig with
    | none => simp
    | some a =>
      dsimp only
      cases hv : s.byEth x.bridge a with
      | none => simp [hv]
      | some v =>
        dsimp only
        cases hst : s.status v with
        | none => simp [hv, hst]
        | some st =>
          dsimp only
          cases hf : s.fraction x.bridge with
          | none => simp [hp, hv, hst]
          | some f =>
            dsimp only
            split <;> simp

example : Convicts demoEnv { (run demoEnv {} demoOps) with past := [] } (.batch demoBatch) 1145 5 :=
  ⟨by decide, ⟨50, by decide +kernel, by decide +kernel⟩, by decide +kernel, by decide +kernel⟩

/-! ## What a signature stands for -/

/-- Two items have the same checkpoint exactly when they are the same message, as far as the hash tells their data apart. -/
theorem checkpoint_iff (e : Env) (x y : Subject) (hinj : e.keccak (pack x) = e.keccak (pack y) → pack x = pack y) :
    checkpoint e x = checkpoint e y ↔ SameMessage x y := by
  rw [← pack_iff]
  exact ⟨hinj, fun h => congrArg e.keccak h⟩

example : ¬ SameMessage (.batch demoBatch) (.batch demoFake) := by
  rintro ⟨_, _, _, h⟩
  exact absurd h (by decide)

/-- The bridge is no part of it. -/
theorem bridge_not_signed (e : Env) (x : Subject) (b : Bridge) : checkpoint e (x.of b) = checkpoint e x := by
  cases x <;> rfl

/-! ## The honest -/

/-- What the chain asked to sign for a bridge is never evidence for that bridge, in no later state, as long as the chain is not started anew from an export. -/
theorem asked_is_no_evidence (e : Env) (os : List Op) (hos : ∀ o ∈ os, o ≠ .restart) (x : Subject) (sig : Sig) (h : Asked (run e {} os) x.bridge x) :
    evidence e (run e {} os) x sig = .refused := by
  obtain ⟨y, hy, hm⟩ := h
  have hf : Filed e (run e {} os) := filed_run (by intro b y hy; cases hy) hos
  have := hf _ _ hy
  have hc : checkpoint e x = checkpoint e y := congrArg e.keccak (pack_iff.2 hm)
  rw [← hc] at this
  unfold evidence
  rw [if_pos this]

example : Asked (run demoEnv {} demoOps) 1 (.batch demoBatch) := ⟨.batch demoBatch, by decide +kernel, rfl, rfl, rfl, rfl⟩

/-- An archived checkpoint stays archived. -/
theorem archive_grows (e : Env) (s : State) (os : List Op) (hos : ∀ o ∈ os, o ≠ .restart) (p : Bridge × Hash) (h : p ∈ s.past) : p ∈ (run e s os).past :=
  past_run h hos

/-- Validators are safe from evidence if, for each of the bridges they are registered with, they signed only what was asked for that very bridge, and the chain was not
started anew. The full statement is `HonestAreSafe`. -/
theorem honest_are_safe_partial (e : Env) (os : List Op) (hos : ∀ o ∈ os, o ≠ .restart) (x : Subject) (sig : Sig) (v : Val)
    (h : HonestPerBridge e (run e {} os) v) : (step e (run e {} os) (.evidence x sig)).tokens v = (run e {} os).tokens v := by
  unfold step
  dsimp only
  split
  · rename_i s' w hs
    by_cases hw : v = w
    · subst hw
      obtain ⟨a, _, _, h1, h2, h3, _⟩ := evidence_slashed hs
      obtain ⟨y, hy, hc⟩ := h _ _ _ _ h3 h2
      have hf : Filed e (run e {} os) := filed_run (by intro b y hy; cases hy) hos
      rw [hc] at h1
      exact absurd (hf _ _ hy) h1
    · exact (cost e _ _ x sig w hs).2.1 v hw
  · rfl

example : HonestPerBridge demoEnv (run demoEnv {} (demoOps.filter (· matches .ask _ | .stake .. | .params .. | .register 1 ..))) 5 := by
  intro b a c sig hb hr
  have hc : c = 1145 := by
    unfold demoEnv at hr
    dsimp only at hr
    split at hr
    · rename_i h; exact h.2
    · cases hr
  have hb1 : b = 1 := by
    by_cases h : b = 1
    · exact h
    · exfalso
      have : (run demoEnv {} (demoOps.filter (· matches .ask _ | .stake .. | .params .. | .register 1 ..))).byEth b a = none := by
        show (if b = 1 ∧ a = 50 then some 5 else none) = none
        rw [if_neg (fun x => h x.1)]
      rw [this] at hb
      cases hb
  subst hb1
  exact ⟨.batch demoBatch, by decide +kernel, by rw [hc]; decide⟩

/-- A signature over what the chain asked for one bridge convicts its signer on every other bridge where the address is registered and the same message was not asked for. -/
theorem convicted_elsewhere (e : Env) (s : State) (x : Subject) (b : Bridge) (sig : Sig) (a : Addr) (v : Val)
    (hsig : e.recover (checkpoint e x) sig = some a) (hreg : s.byEth b a = some v) (hst : s.status v = some .bonded) (hb : (s.fraction b).isSome = true)
    (hnot : (b, checkpoint e x) ∉ s.past) : Convicts e s (x.of b) sig v := by
  have hbr : (x.of b).bridge = b := by cases x <;> rfl
  refine ⟨?_, ⟨a, ?_, ?_⟩, Or.inl hst, ?_⟩
  · rw [hbr, bridge_not_signed]; exact hnot
  · rw [bridge_not_signed]; exact hsig
  · rw [hbr]; exact hreg
  · rw [hbr]; exact hb

/-- So honest validators are not safe. -/
theorem honest_are_not_safe : ¬ HonestAreSafe demoEnv := by
  intro h
  have hh : Honest demoEnv (run demoEnv {} demoOps) 5 := by
    intro b a c sig _ hr
    unfold demoEnv at hr
    dsimp only at hr
    split at hr
    · rename_i hc
      exact ⟨(1, .batch demoBatch), by decide +kernel, by rw [hc.2]; decide⟩
    · cases hr
  have := h demoOps ((Subject.batch demoBatch).of 2) 1145 5 hh
  exact absurd this (by decide +kernel)

example : (step demoEnv (run demoEnv {} demoOps) (.evidence ((Subject.batch demoBatch).of 2) 1145)).tokens 5 = 900 := by decide +kernel

/-- When the chain has been started anew, every signature ever given for a bridge convicts its signer, also one over an item still to be signed. -/
theorem convicted_after_restart (e : Env) (s : State) (x : Subject) (sig : Sig) (a : Addr) (v : Val) (hsig : e.recover (checkpoint e x) sig = some a)
    (hreg : s.byEth x.bridge a = some v) (hst : s.status v = some .bonded) (hb : (s.fraction x.bridge).isSome = true) :
    Convicts e (step e s .restart) x sig v :=
  ⟨fun h => (by cases h), ⟨a, hsig, hreg⟩, Or.inl hst, hb⟩

example : (run demoEnv {} (demoOps ++ [.restart, .evidence (.batch demoBatch) 1145])).tokens 5 = 900 := by decide +kernel

/-! ## The guilty -/

/-- A validator registered with a bridge whose address signed a message never asked for, for any bridge, can be convicted as long as it is not unbonded: no item the
chain filed has the same checkpoint, as far as the hash tells the data apart. -/
theorem guilty_can_be_convicted (e : Env) (os : List Op) (x : Subject) (sig : Sig) (a : Addr) (v : Val)
    (hinj : ∀ b y, (b, y) ∈ (run e {} os).asked → e.keccak (pack x) = e.keccak (pack y) → pack x = pack y)
    (hsig : e.recover (checkpoint e x) sig = some a) (hreg : (run e {} os).byEth x.bridge a = some v)
    (hst : (run e {} os).status v = some .bonded ∨ (run e {} os).status v = some .unbonding) (hb : ((run e {} os).fraction x.bridge).isSome = true)
    (hnot : ¬ Asked (run e {} os) x.bridge x) : ∃ s', evidence e (run e {} os) x sig = .slashed s' v := by
  rw [convicted_iff]
  refine ⟨?_, ⟨a, hsig, hreg⟩, hst, hb⟩
  have key : ∀ (os : List Op) (s : State), (∀ p ∈ s.past, ∃ y, (p.1, y) ∈ s.asked ∧ p.2 = checkpoint e y) →
      ∀ p ∈ (run e s os).past, ∃ y, (p.1, y) ∈ (run e s os).asked ∧ p.2 = checkpoint e y := by
    intro os
    induction os with
    | nil => intro s h; exact h
    | cons o os ih =>
      intro s h
      refine ih (step e s o) ?_
      cases o with
      | ask x =>
        show ∀ p ∈ (file e s x).past, ∃ y, (p.1, y) ∈ (file e s x).asked ∧ p.2 = checkpoint e y
        rcases file_cases e s x with hf | hf
        · rw [hf]; exact h
        · rw [hf]
          intro p hp
          rcases List.mem_cons.1 hp with hp | hp
          · exact ⟨x, by rw [hp]; exact List.mem_cons_self .., by rw [hp]⟩
          · obtain ⟨y, h1, h2⟩ := h p hp
            exact ⟨y, List.mem_cons_of_mem _ h1, h2⟩
      | evidence x sig =>
        unfold step; dsimp only
        split
        · rename_i s' v hs
          obtain ⟨_, _, _, _, _, _, _, _, _, rfl⟩ := evidence_slashed hs
          exact h
        · exact h
      | register b v a => exact h
      | stake v st t => exact h
      | params b f => exact h
      | restart => intro p hp; cases hp
  intro hp
  obtain ⟨y, h1, h2⟩ := key os {} (by intro p hp; cases hp) _ hp
  exact hnot ⟨y, h1, pack_iff.1 (hinj _ y h1 h2)⟩

example : ¬ Asked (run demoEnv {} demoOps) 1 (.batch demoFake) := by
  rintro ⟨y, hy, hm⟩
  have : (run demoEnv {} demoOps).asked = [(1, .batch demoBatch)] := by decide +kernel
  rw [this, List.mem_singleton] at hy
  injection hy with _ hy
  subst hy
  obtain ⟨_, _, _, h⟩ := hm
  exact absurd h (by decide)

/-- Accepted evidence is accepted again, any number of times. -/
theorem again_and_again (e : Env) (s : State) (x : Subject) (sig : Sig) (v : Val) (h : Convicts e s x sig v) (k : Nat) :
    Convicts e (run e s (List.replicate k (.evidence x sig))) x sig v := by
  induction k generalizing s with
  | zero => exact h
  | succ k ih =>
    rw [List.replicate_succ]
    refine ih (step e s (.evidence x sig)) ?_
    obtain ⟨s', hs⟩ := (convicted_iff e s x sig v).2 h
    have hst : step e s (.evidence x sig) = s' := by unfold step; dsimp only; rw [hs]
    rw [hst, (cost e s s' x sig v hs).1]
    exact ⟨h.unknown, h.signer, h.staked, h.bridge⟩

/-- And costs its validator each time: as long as the fraction of its whole units is not zero the stake gets smaller. -/
theorem each_time_costs (e : Env) (s s' : State) (x : Subject) (sig : Sig) (v : Val) (f : Nat) (h : evidence e s x sig = .slashed s' v)
    (hst : s.status v = some .bonded) (hf : s.fraction x.bridge = some f) (hle : f ≤ 10 ^ 18) (hpos : 10 ^ 18 ≤ s.tokens v / e.unit * e.unit * f) :
    s'.tokens v < s.tokens v := by
  have hc := (cost e s s' x sig v h).2.2.2 hst f hf hle
  have : 1 ≤ s.tokens v / e.unit * e.unit * f / 10 ^ 18 := (Nat.le_div_iff_mul_le (by decide)).2 (by rw [Nat.one_mul]; exact hpos)
  omega

/-- So once is not enough. -/
theorem once_is_not_enough : ¬ OnceIsEnough demoEnv := by
  intro h
  have hc : Convicts demoEnv { (run demoEnv {} demoOps) with past := [] } (.batch demoBatch) 1145 5 :=
    ⟨by decide, ⟨50, by decide +kernel, by decide +kernel⟩, by decide +kernel, by decide +kernel⟩
  obtain ⟨s', hs⟩ := (convicted_iff _ _ _ _ _).2 hc
  have h1 := h _ s' _ _ _ hs
  have hst : step demoEnv { (run demoEnv {} demoOps) with past := [] } (.evidence (.batch demoBatch) 1145) = s' := by unfold step; dsimp only; rw [hs]
  rw [← hst] at h1
  exact absurd h1 (by decide +kernel)

/-- The set of validators has members, or the item is a batch. -/
def Subject.Proper : Subject → Prop
  | .valset v => v.members ≠ []
  | .batch _ => True

/-- **What the chain asks to sign is filed**: each batch, and each set of validators with members, at once and under its bridge. -/
theorem items_are_filed (e : Env) (s : State) (x : Subject) (h : x.Proper) :
    (x.bridge, x) ∈ (step e s (.ask x)).asked ∧ (x.bridge, checkpoint e x) ∈ (step e s (.ask x)).past ∧
    ∀ sig, evidence e (step e s (.ask x)) x sig = .refused := by
  have hf : step e s (.ask x) = { s with past := (x.bridge, checkpoint e x) :: s.past, asked := (x.bridge, x) :: s.asked } := by
    cases x with
    | batch b => rfl
    | valset v =>
      obtain ⟨br, nonce, members, ra, rt⟩ := v
      cases members with
      | nil => exact absurd rfl h
      | cons m ms => rfl
  rw [hf]
  refine ⟨List.mem_cons_self .., List.mem_cons_self .., fun sig => ?_⟩
  unfold evidence
  rw [if_pos (List.mem_cons_self ..)]

/-- **Registrations are for one bridge and one address**, and the other events leave them alone. -/
theorem registration_is_local (e : Env) (s : State) (o : Op) (b : Bridge) (a : Addr)
    (h : (step e s o).byEth b a ≠ s.byEth b a) : ∃ v, o = .register b v a ∧ (step e s o).byEth b a = some v := by
  cases o with
  | register b' v a' =>
    unfold step at h ⊢
    dsimp only at h ⊢
    split at h
    · rename_i hc
      rw [if_pos hc]
      exact ⟨v, by rw [hc.1, hc.2], rfl⟩
    · exact absurd rfl h
  | ask x =>
    exfalso
    apply h
    show (file e s x).byEth b a = _
    unfold file
    split <;> rfl
  | evidence x sig =>
    exfalso
    apply h
    unfold step
    dsimp only
    cases hs : evidence e s x sig with
    | slashed s' v => dsimp only; rw [(cost e s s' x sig v hs).1]
    | _ => rfl
  | _ => exact absurd rfl h

example : Subject.Proper (.batch demoBatch) := trivial

end Evidence
