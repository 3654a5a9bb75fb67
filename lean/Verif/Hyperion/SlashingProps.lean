import Verif.Hyperion.Slashing
/-!
# Slashing for missing confirmations (C62)

The full property: a validator is slashed for a request or batch exactly if it was bound to confirm it and did not within the window, and
once only. The code satisfies less: see the theorems.
-/
namespace Hyperion.Slashing

/-! ### Specification -/

/-- The validator confirmed the request with the Ethereum address registered for it. -/
def Confirmed (e : Env) (chain : Nat) (r : Req) (val : Nat) : Prop := ∃ c ∈ e.reqConfirms chain r.nonce, e.eth chain val = some c

/-- The validator was there before the request. -/
def Present (v : Val) (height : Nat) : Prop := ∃ s, v.joined = some s ∧ s < (height : Int)

theorem not_any_iff {e : Env} {chain : Nat} {r : Req} {val : Nat} :
    ((!(e.reqConfirms chain r.nonce).any (fun c => e.eth chain val == some c)) = true) ↔ ¬ Confirmed e chain r val := by
  rw [Bool.not_eq_true', Bool.eq_false_iff, ne_eq, List.any_eq_true]
  unfold Confirmed
  simp only [beq_iff_eq]

theorem missedByBonded_iff {e : Env} {chain : Nat} {r : Req} {v : Val} : missedByBonded e chain r v = true ↔
    v.jailed = false ∧ Present v r.height ∧ ∃ val, e.orch chain (e.acc v.op) = some val ∧ ¬ Confirmed e chain r val := by
  unfold missedByBonded Present
  cases hj : v.jailed with
  | true => simp
  | false =>
    cases hs : v.joined with
    | none => simp
    | some s =>
      simp only [Bool.false_eq_true, if_false]
      by_cases hlt : s < (r.height : Int)
      · rw [if_pos hlt]
        cases ho : e.orch chain (e.acc v.op) with
        | none => simp
        | some val =>
          dsimp only
          rw [not_any_iff]
          constructor
          · exact fun h => ⟨trivial, ⟨s, rfl, hlt⟩, val, rfl, h⟩
          · rintro ⟨_, _, val', h1, h2⟩
            cases h1; exact h2
      · rw [if_neg hlt]
        constructor
        · intro h; cases h
        · rintro ⟨_, ⟨s', h1, h2⟩, _⟩
          cases h1; exact absurd h2 hlt

theorem missedByUnbonding_iff {e : Env} {chain w : Nat} {r : Req} {v : Val} : missedByUnbonding e chain w r v = true ↔
    v.unbonding = true ∧ r.height < v.unbondingHeight + w ∧ Present v r.height ∧ (e.orch chain (e.acc v.op)).isSome = true ∧ ¬ Confirmed e chain r v.op := by
  unfold missedByUnbonding Present
  cases ho : e.orch chain (e.acc v.op) with
  | none => simp
  | some o =>
    cases hs : v.joined with
    | none => simp
    | some s =>
      dsimp only
      split
      · rename_i h
        rw [not_any_iff]
        exact ⟨fun hc => ⟨h.2.1, h.2.2, ⟨s, rfl, h.1⟩, rfl, hc⟩, fun hc => hc.2.2.2.2⟩
      · rename_i h
        constructor
        · intro h; cases h
        · rintro ⟨h1, h2, ⟨s', h3, h4⟩, _⟩
          cases h3
          exact absurd ⟨h4, h1, h2⟩ h

/-! ### What holds -/

/-- Exactly who is slashed for validator set requests in a block: for every request after the last one slashed with a nonce below the height minus
the window, the bonded validators that are not jailed, and the unbonding ones within the window, that were there before the request, are
registered, and did not confirm. -/
theorem slashed_exactly (e : Env) (p : Params) {height last : Nat} (hh : p.valsetWindow < height) (n op : Nat) :
    (n, op) ∈ (valsetSlashing e p height last).1 ↔ ∃ r ∈ e.reqs p.chain, r.nonce = n ∧ last < n ∧ n < height - p.valsetWindow ∧
      ((∃ v ∈ e.bonded, v.op = op ∧ v.jailed = false ∧ Present v r.height ∧ ∃ val, e.orch p.chain (e.acc v.op) = some val ∧ ¬ Confirmed e p.chain r val) ∨
       (∃ v ∈ e.queue, v.op = op ∧ v.unbonding = true ∧ r.height < v.unbondingHeight + p.unbondWindow ∧ Present v r.height ∧
          (e.orch p.chain (e.acc v.op)).isSome = true ∧ ¬ Confirmed e p.chain r v.op)) := by
  unfold valsetSlashing
  rw [if_pos hh]
  dsimp only
  rw [List.mem_flatMap]
  unfold unslashedReqs slashReq
  simp only [List.mem_filter, List.mem_map, List.mem_append, Prod.mk.injEq, Bool.and_eq_true, decide_eq_true_eq]
  constructor
  · rintro ⟨r, ⟨⟨h1, h2, h3⟩, h4⟩, v, hv, h5, h6⟩
    refine ⟨r, h1, h5, by omega, by omega, ?_⟩
    rcases hv with ⟨hv, hm⟩ | ⟨hv, hm⟩
    · exact .inl ⟨v, hv, h6, missedByBonded_iff.1 hm⟩
    · exact .inr ⟨v, hv, h6, missedByUnbonding_iff.1 hm⟩
  · rintro ⟨r, h1, h2, h3, h4, h⟩
    refine ⟨r, ⟨⟨h1, by omega, by omega⟩, by omega⟩, ?_⟩
    rcases h with ⟨v, hv, h6, hm⟩ | ⟨v, hv, h6, hm⟩
    · exact ⟨v, .inl ⟨hv, missedByBonded_iff.2 hm⟩, h2, h6⟩
    · exact ⟨v, .inr ⟨hv, missedByUnbonding_iff.2 hm⟩, h2, h6⟩

/-- Requests are in the order of their nonces, each nonce once; a validator is in the bonded set or in the queue, once. -/
def EnvOk (e : Env) (chain : Nat) : Prop :=
  (e.reqs chain).Pairwise (fun a b => a.nonce < b.nonce) ∧ ((e.bonded ++ e.queue).map (·.op)).Nodup

theorem unslashed_sorted {reqs : List Req} (h : reqs.Pairwise (fun a b => a.nonce < b.nonce)) (last m : Nat) :
    (unslashedReqs reqs last m).Pairwise (fun a b => a.nonce < b.nonce) ∧ ∀ r ∈ unslashedReqs reqs last m, last < r.nonce := by
  unfold unslashedReqs
  refine ⟨(h.filter _).filter _, ?_⟩
  intro r hr
  simpa using (List.mem_filter.1 hr).2

theorem last_is_max {l : List Req} (h : l.Pairwise (fun a b => a.nonce < b.nonce)) (last : Nat) (hl : ∀ r ∈ l, last < r.nonce) :
    last ≤ (l.getLast?.map (·.nonce)).getD last ∧ ∀ r ∈ l, r.nonce ≤ (l.getLast?.map (·.nonce)).getD last := by
  cases hg : l.getLast? with
  | none =>
    rw [List.getLast?_eq_none_iff] at hg
    subst hg
    exact ⟨Nat.le_refl _, by simp⟩
  | some g =>
    show last ≤ g.nonce ∧ ∀ r ∈ l, r.nonce ≤ g.nonce
    obtain ⟨ys, rfl⟩ := List.getLast?_eq_some_iff.1 hg
    refine ⟨Nat.le_of_lt (hl g (by simp)), ?_⟩
    intro r hr
    rcases List.mem_append.1 hr with h2 | h2
    · exact Nat.le_of_lt ((List.pairwise_append.1 h).2.2 r h2 g (by simp))
    · rw [List.mem_singleton] at h2; rw [h2]; exact Nat.le_refl _

theorem slashReq_nodup {e : Env} {p : Params} (h : ((e.bonded ++ e.queue).map (·.op)).Nodup) (r : Req) : (slashReq e p r).Nodup := by
  unfold slashReq
  have hsub : List.Sublist ((e.bonded.filter (missedByBonded e p.chain r)) ++ (e.queue.filter (missedByUnbonding e p.chain p.unbondWindow r))) (e.bonded ++ e.queue) :=
    List.filter_sublist.append List.filter_sublist
  have := h.sublist (hsub.map (·.op))
  rw [List.nodup_iff_pairwise_ne, List.pairwise_map] at *
  exact this.imp (fun h he => h (congrArg Prod.snd he))

theorem block_once {e : Env} {p : Params} (h : EnvOk e p.chain) (height last : Nat) :
    (valsetSlashing e p height last).1.Nodup ∧ last ≤ (valsetSlashing e p height last).2 ∧
      ∀ x ∈ (valsetSlashing e p height last).1, last < x.1 ∧ x.1 ≤ (valsetSlashing e p height last).2 := by
  unfold valsetSlashing
  split
  · dsimp only
    obtain ⟨h1, h2⟩ := unslashed_sorted h.1 last (height - p.valsetWindow)
    obtain ⟨h3, h4⟩ := last_is_max h1 last h2
    have hx : ∀ r x, x ∈ slashReq e p r → x.1 = r.nonce := by
      intro r x hx
      obtain ⟨v, _, rfl⟩ := List.mem_map.1 hx
      rfl
    refine ⟨?_, h3, ?_⟩
    · generalize unslashedReqs (e.reqs p.chain) last (height - p.valsetWindow) = l at h1 h2
      clear h3 h4 h2
      induction l with
      | nil => exact .nil
      | cons r rs ih =>
        have hp := List.pairwise_cons.1 h1
        rw [List.flatMap_cons, List.nodup_append]
        refine ⟨slashReq_nodup h.2 r, ih hp.2, ?_⟩
        intro a ha b hb
        obtain ⟨r', hr', hb⟩ := List.mem_flatMap.1 hb
        have := hp.1 r' hr'
        intro he
        subst he
        have g1 := hx r a ha
        have g2 := hx r' a hb
        omega
    · intro x hxm
      obtain ⟨r, hr, hxr⟩ := List.mem_flatMap.1 hxm
      rw [hx r x hxr]
      exact ⟨h2 r hr, h4 r hr⟩
  · exact ⟨.nil, Nat.le_refl _, by intro x h; cases h⟩

/-- Over the whole history no validator is slashed twice for the same validator set request. -/
theorem slashed_once {chain : Nat} : ∀ (bs : List (Env × Params × Nat)) (last : Nat), (∀ b ∈ bs, b.2.1.chain = chain ∧ EnvOk b.1 chain) →
    (runReqs last bs).Nodup ∧ ∀ x ∈ runReqs last bs, last < x.1 := by
  intro bs
  induction bs with
  | nil => intro last _; exact ⟨.nil, by intro x h; cases h⟩
  | cons b bs ih =>
    intro last hb
    obtain ⟨e, p, h⟩ := b
    have hok := hb (e, p, h) List.mem_cons_self
    obtain ⟨h1, h2, h3⟩ := block_once (p := p) (by rw [show p.chain = chain from hok.1]; exact hok.2) h last
    obtain ⟨i1, i2⟩ := ih (valsetSlashing e p h last).2 (fun b hb' => hb b (List.mem_cons_of_mem _ hb'))
    unfold runReqs
    refine ⟨?_, ?_⟩
    · rw [List.nodup_append]
      refine ⟨h1, i1, ?_⟩
      intro a ha b hb' he
      subst he
      exact absurd (i2 a hb') (Nat.not_lt.2 (h3 a ha).2)
    · intro x hx
      rcases List.mem_append.1 hx with hx | hx
      · exact (h3 x hx).1
      · exact Nat.lt_of_le_of_lt h2 (i2 x hx)

/-- Who is slashed for a batch: bonded validators that are registered, were not later than the batch, and none of whose orchestrators confirmed. -/
theorem batch_slashed_iff (e : Env) (b : Batch) (v : Val) : missedBatch e b v = true ↔
    (e.orch b.chain (e.acc v.op)).isSome = true ∧ (∀ s, v.joined = some s → s ≤ (b.block : Int)) ∧ ¬ ∃ o ∈ e.batchConfirms b, e.orch b.chain o = some v.op := by
  unfold missedBatch
  cases ho : e.orch b.chain (e.acc v.op) with
  | none => simp
  | some _ =>
    dsimp only
    have hany : ((!(e.batchConfirms b).any (fun o => e.orch b.chain o == some v.op)) = true) ↔ ¬ ∃ o ∈ e.batchConfirms b, e.orch b.chain o = some v.op := by
      rw [Bool.not_eq_true', Bool.eq_false_iff, ne_eq, List.any_eq_true]
      simp only [beq_iff_eq]
    cases hs : v.joined with
    | none =>
      simp only [Bool.false_eq_true, if_false]
      rw [hany]
      simp
    | some s =>
      dsimp only
      by_cases hlt : (b.block : Int) < s
      · rw [if_pos (by simpa using hlt)]
        constructor
        · intro h; cases h
        · rintro ⟨_, h, _⟩
          have := h s rfl
          omega
      · rw [if_neg (by simpa using hlt), hany]
        exact ⟨fun h => ⟨rfl, fun s' e => by cases e; omega, h⟩, fun h => h.2.2⟩

/-- Exactly who is slashed for batches in a block. The batches considered are those of all chains whose *number* lies between the last slashed block and
the height minus the window. -/
theorem batches_slashed_exactly (e : Env) (p : Params) {height last : Nat} (hh : p.batchWindow < height) (b : Batch) (op : Nat) :
    (b, op) ∈ (batchSlashing e p height last).1 ↔ b ∈ e.batches ∧ last ≤ b.chain ∧ b.chain < height - p.batchWindow ∧ last < b.block ∧
      ∃ v ∈ e.bonded, v.op = op ∧ (e.orch b.chain (e.acc v.op)).isSome = true ∧ (∀ s, v.joined = some s → s ≤ (b.block : Int)) ∧
        ¬ ∃ o ∈ e.batchConfirms b, e.orch b.chain o = some v.op := by
  unfold batchSlashing
  rw [if_pos hh]
  dsimp only
  rw [List.mem_flatMap]
  unfold unslashedBatches slashBatch
  simp only [List.mem_filter, List.mem_map, Prod.mk.injEq, Bool.and_eq_true, decide_eq_true_eq]
  constructor
  · rintro ⟨b', ⟨⟨h1, h2, h3⟩, h4⟩, v, ⟨hv, hm⟩, rfl, h6⟩
    exact ⟨h1, h2, h3, h4, v, hv, h6, (batch_slashed_iff e b' v).1 hm⟩
  · rintro ⟨h1, h2, h3, h4, v, hv, h6, hm⟩
    exact ⟨b, ⟨⟨h1, h2, h3⟩, h4⟩, v, ⟨hv, (batch_slashed_iff e b v).2 hm⟩, rfl, h6⟩

/-! ### What does not hold -/

/-- An operator address is not an account address: its text form has another prefix (helios-chain/types/config.go 9-17), so reading it as an
account address fails, and the error is ignored, leaving the empty address. No orchestrator is registered under the empty address. -/
def OperatorsAreNotAccounts (e : Env) : Prop := ∃ empty, (∀ op, e.acc op = empty) ∧ ∀ chain, e.orch chain empty = none

/-- So nobody is ever slashed, for requests or batches, in any history. -/
theorem nobody_is_slashed {bs : List (Env × Params × Nat)} (h : ∀ b ∈ bs, OperatorsAreNotAccounts b.1) (last : Nat) :
    runReqs last bs = [] ∧ runBatches last bs = [] := by
  induction bs generalizing last with
  | nil => exact ⟨rfl, rfl⟩
  | cons b bs ih =>
    obtain ⟨e, p, ht⟩ := b
    obtain ⟨empty, h1, h2⟩ := h (e, p, ht) List.mem_cons_self
    have ho : ∀ chain op, e.orch chain (e.acc op) = none := fun chain op => by
      have : e.acc op = empty := h1 op
      rw [this]; exact h2 chain
    have hb1 : ∀ chain r v, missedByBonded e chain r v = false := by
      intro chain r v
      rw [Bool.eq_false_iff]
      intro h
      obtain ⟨_, _, val, h3, _⟩ := missedByBonded_iff.1 h
      rw [ho] at h3; cases h3
    have hb2 : ∀ chain w r v, missedByUnbonding e chain w r v = false := by
      intro chain w r v
      rw [Bool.eq_false_iff]
      intro h
      have := (missedByUnbonding_iff.1 h).2.2.2.1
      rw [ho] at this; cases this
    have hb3 : ∀ b v, missedBatch e b v = false := by
      intro b v
      rw [Bool.eq_false_iff]
      intro h
      have := ((batch_slashed_iff e b v).1 h).1
      rw [ho] at this; cases this
    have e1 : (valsetSlashing e p ht last).1 = [] := by
      unfold valsetSlashing
      split
      · dsimp only
        rw [List.flatMap_eq_nil_iff]
        intro r _
        unfold slashReq
        rw [List.filter_eq_nil_iff.2 (fun v _ => by rw [hb1]; decide), List.filter_eq_nil_iff.2 (fun v _ => by rw [hb2]; decide)]
        rfl
      · rfl
    have e2 : (batchSlashing e p ht last).1 = [] := by
      unfold batchSlashing
      split
      · dsimp only
        rw [List.flatMap_eq_nil_iff]
        intro b _
        unfold slashBatch
        rw [List.filter_eq_nil_iff.2 (fun v _ => by rw [hb3]; decide)]
        rfl
      · rfl
    have ih := ih (fun b hb => h b (List.mem_cons_of_mem _ hb))
    refine ⟨?_, ?_⟩
    · show (valsetSlashing e p ht last).1 ++ _ = []
      rw [e1, (ih _).1]; rfl
    · show (batchSlashing e p ht last).1 ++ _ = []
      rw [e2, (ih _).2]; rfl

/-! ### Concrete cases -/

/-- Two validators, both registered as their own orchestrators; the second one has confirmed request 5. Addresses could be read here. -/
def demo : Env :=
  { bonded := [⟨1, false, some 0, false, 0⟩, ⟨2, false, some 0, false, 0⟩]
    queue := [⟨3, false, some 0, true, 990⟩]
    acc := fun op => op
    orch := fun _ a => if a ≤ 3 then some a else none
    eth := fun _ v => some (v + 100)
    reqs := fun _ => [⟨5, 1000⟩]
    batches := [⟨1, 100, 1⟩, ⟨2, 50, 1⟩]
    reqConfirms := fun _ n => if n = 5 then [102] else []
    batchConfirms := fun _ => [2] }

example : EnvOk demo 1 := by unfold EnvOk; decide +kernel

/-- The window is not kept, even if addresses could be read: the search compares nonces with a height. A request made in block 1000 with nonce 5 is
punished in the same block, before anyone could confirm, although the window is 100 blocks. -/
theorem window_not_kept : (valsetSlashing demo ⟨1, 100, 100, 1000⟩ 1000 0).1 = [(5, 1), (5, 3)] := by decide +kernel

/-- The same batch would be punished again in every block: the last slashed block is set to that of the last batch in the order of the chains. -/
theorem batch_punished_again :
    runBatches 0 [(demo, ⟨1, 10, 10, 10⟩, 1000), (demo, ⟨1, 10, 10, 10⟩, 1001)] =
      [(⟨1, 100, 1⟩, 1), (⟨2, 50, 1⟩, 1)] ∧
    runBatches 0 [({ demo with batches := [⟨100, 100, 1⟩, ⟨200, 50, 1⟩] }, ⟨1, 10, 10, 10⟩, 1000),
                  ({ demo with batches := [⟨100, 100, 1⟩, ⟨200, 50, 1⟩] }, ⟨1, 10, 10, 10⟩, 1001)] =
      [(⟨100, 100, 1⟩, 1), (⟨200, 50, 1⟩, 1), (⟨100, 100, 1⟩, 1)] := by decide +kernel

/-- The environment of a real chain: addresses cannot be read. -/
example : OperatorsAreNotAccounts { demo with acc := fun _ => 4 } := ⟨4, fun _ => rfl, fun _ => rfl⟩

end Hyperion.Slashing
