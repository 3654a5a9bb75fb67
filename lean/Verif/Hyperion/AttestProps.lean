import Verif.Hyperion.AttestLemmas3
/-!
# Votes on claims: what users rely on

`Sent hash hist k v` (AttestLemmas2): validator `v` sent a well-formed claim with key `k` while bonded.  `Justified hash hist c`:
at some end of block of the history, distinct validators that had sent the claim had at least 66 percent (rounded down) of
the power of the bonded validators with a bridge key.
-/
namespace Hyperion.Attest
open Hyperion

variable {hash : Str → Str}

/-! ## Required voting power -/

/-- A claim takes effect only if, at the end of some block, distinct validators that had sent it (while bonded) had 66
percent, rounded down, of the bridge's voting power, and only if somebody sent that very claim.

Partial: the powers of voters that have since lost their bridge key count although the total leaves them out
(`departed_vote_counts`), the threshold is rounded down (`zero_threshold`), and before height 34801 a validator may vote
twice (`early_double_vote`). -/
theorem claims_need_power_partial (lo lh : Nat → Nat) (hist : List (Env × Op)) (hh : ∀ x ∈ hist, 34800 < x.1.height) :
    ∀ c ∈ (run hash (init lo lh) hist).2, Justified hash hist c ∧ c.basic = true ∧ ∃ env, (env, Op.claim c) ∈ hist := by
  have i := run_votes (hash := hash) lo lh hist hh
  exact fun c hc => ⟨i.just c hc, i.was c hc⟩

theorem sum_filter_le (p : Nat → Nat) (a : Nat → Bool) (l : List Nat) : ((l.filter a).map p).sum ≤ (l.map p).sum := by
  induction l with
  | nil => simp
  | cons v l ih =>
    simp only [List.filter_cons, List.map_cons, List.sum_cons]
    split
    · simp only [List.map_cons, List.sum_cons]
      omega
    · omega

/-- If distinct validators that sent a claim have the required power at the end of a block, an event with its nonce has
taken effect after that block. -/
theorem enough_votes_take_effect (lo lh : Nat → Nat) (hist : List (Env × Op)) (env : Env) (k : Key) (vs : List Nat)
    (hr : NoReset hist) (hh : ∀ x ∈ hist, 244300 ≤ x.1.height)
    (hn : vs.Nodup) (hne : vs ≠ []) (hs : ∀ v ∈ vs, Sent hash hist k v)
    (hp : ((env.bonded.filter (env.keyed k.1)).map env.power).sum * 66 / 100 ≤ (vs.map env.power).sum) :
    ∃ c ∈ (run hash (init lo lh) (hist ++ [(env, .endBlock k.1)])).2, c.hid = k.1 ∧ c.nonce = k.2.1 := by
  have i := run_marks (hash := hash) lo lh hist hr hh
  have w := run_wf (hash := hash) lo lh hist
  have hv := run_votes (hash := hash) lo lh hist (fun x hx => by have := hh x hx; unfold voteCheckFrom; omega)
  have hd : ∀ v ∈ vs, Handled _ _ k v := fun v hm => run_handled (hash := hash) lo lh hist hr hh k v (hs v hm)
  rw [run_snoc]
  generalize (run hash (init lo lh) hist).1 = st at *
  generalize (run hash (init lo lh) hist).2 = o at *
  by_cases hdone : ∃ c ∈ o, c.hid = k.1 ∧ c.nonce = k.2.1
  · obtain ⟨c, hc, h⟩ := hdone
    exact ⟨c, List.mem_append_left _ hc, h⟩
  · have hd : ∀ v ∈ vs, ∃ a, KV.get st.atts k = some a ∧ v ∈ a.votes := fun v hm => (hd v hm).resolve_left hdone
    obtain ⟨v0, hv0⟩ := List.exists_mem_of_ne_nil vs hne
    obtain ⟨a, hg, _⟩ := hd v0 hv0
    have hsub : ∀ v ∈ vs, v ∈ a.votes := by
      intro v hm
      obtain ⟨a', hg', hm'⟩ := hd v hm
      rw [hg] at hg'
      cases hg'
      exact hm'
    have hreach : reaches env (required env k.1) 0 a.votes = true := by
      rw [reaches_iff]
      refine ⟨fun h => ?_, ?_⟩
      · have := hsub v0 hv0
        rw [h] at this
        cases this
      · rw [Nat.zero_add]
        refine Nat.le_trans hp ?_
        rw [sum_perm_filter env.power (hv.nodup k a hg) hn hsub]
        exact sum_filter_le _ _ _
    have hclean : clean st k.1 = st := by
      unfold clean
      rw [i.due]
      rfl
    have hk := w.get hg
    have hmem : (k, a) ∈ attsOf st k.1 := mem_attsOf.2 ⟨KV.mem_of_get hg, rfl⟩
    have h1 : a.claim.hid = k.1 := congrArg (·.1) hk
    have h2 : a.claim.nonce = k.2.1 := congrArg (·.2.1) hk
    rcases tallyLoop_done (env := env) _ st (snap_attsOf w k.1) (k, a) hmem with ho | hnr | hin
    · obtain ⟨c, hc, hck⟩ := i.observed k a hg ho
      exact ⟨c, List.mem_append_left _ hc, congrArg (·.1) hck, congrArg (·.2.1) hck⟩
    · rw [show (k, a).2 = a from rfl, hreach] at hnr
      cases hnr
    · refine ⟨a.claim, List.mem_append_right _ ?_, h1, h2⟩
      show a.claim ∈ (tally hash env (clean st k.1) k.1).2
      rw [hclean]
      exact hin

/-! ## At most once -/

/-- No claim takes effect twice, after height 244299 and without an operation that cleans a chain's state
(`other_chain_replayed`, `block_time_replays`, `early_replay` show that both are needed). -/
theorem claim_takes_effect_once_partial (lo lh : Nat → Nat) (hist : List (Env × Op)) (hr : NoReset hist)
    (hh : ∀ x ∈ hist, 244300 ≤ x.1.height) : ((run hash (init lo lh) hist).2.map (keyOf hash)).Nodup :=
  (run_marks lo lh hist hr hh).nodup

/-- At most one claim per chain and event nonce takes effect, if nothing about the validators changes and those that send
two different claims with the same nonce are not too powerful: with total power `T` and required power `R`, the power of
`double` is less than `2 R - T` (about 32 percent of `T`).

Partial: with changing powers two conflicting claims can both take effect although every validator voted once
(`conflicting_claims_both_apply`). -/
theorem one_claim_per_nonce_partial (lo lh : Nat → Nat) (hist : List (Env × Op)) (hr : NoReset hist)
    (hh : ∀ x ∈ hist, 244300 ≤ x.1.height) (hid nonce : Nat) (power : Nat → Nat) (bonded : List Nat) (keyed : Nat → Nat → Bool)
    (hnod : bonded.Nodup)
    (hconst : ∀ x ∈ hist, x.1.power = power ∧ x.1.bonded = bonded ∧ x.1.keyed = keyed)
    (hkeyed : ∀ x ∈ hist, ∀ orc v, x.1.validatorOf hid orc = some v → keyed hid v = true)
    (double : Nat → Bool)
    (hdouble : ∀ k1 k2 v, k1.1 = hid → k1.2.1 = nonce → k2.1 = hid → k2.2.1 = nonce → k1 ≠ k2 → Sent hash hist k1 v →
      Sent hash hist k2 v → double v = true)
    (hsmall : ((bonded.filter (keyed hid)).map power).sum + (((bonded.filter (keyed hid)).filter double).map power).sum <
      2 * (((bonded.filter (keyed hid)).map power).sum * 66 / 100)) :
    ((run hash (init lo lh) hist).2.filter (fun c => decide (c.hid = hid ∧ c.nonce = nonce))).length ≤ 1 := by
  have hnd := claim_takes_effect_once_partial (hash := hash) lo lh hist hr hh
  have hj := claims_need_power_partial (hash := hash) lo lh hist (fun x hx => by have := hh x hx; omega)
  have hmem : ∀ (k : Key) (vs : List Nat), k.1 = hid → (∀ v ∈ vs, Sent hash hist k v) → ∀ v ∈ vs, v ∈ bonded.filter (keyed hid) := by
    intro k vs hk hs v hv
    obtain ⟨env, c, h1, _, h2, h3, h4⟩ := hs v hv
    have hc : c.hid = hid := by rw [← hk, ← h2]; rfl
    rw [List.mem_filter]
    refine ⟨(hconst _ h1).2.1 ▸ h4, hkeyed _ h1 c.orch v ?_⟩
    rw [← hc]
    exact h3
  have hpow : ∀ c ∈ (run hash (init lo lh) hist).2, c.hid = hid → ∃ vs : List Nat, vs.Nodup ∧
      (∀ v ∈ vs, Sent hash hist (keyOf hash c) v) ∧
      ((bonded.filter (keyed hid)).map power).sum * 66 / 100 ≤ (vs.map power).sum := by
    intro c hc hch
    obtain ⟨⟨before, env, rest, vs, he, h1, _, h2, h3⟩, _⟩ := hj c hc
    have hx : (env, Op.endBlock c.hid) ∈ hist := by rw [he]; simp
    obtain ⟨e1, e2, e3⟩ := hconst _ hx
    simp only at e1 e2 e3
    rw [e1, e2, e3, hch] at h3
    exact ⟨vs, h1, fun v hv => (h2 v hv).mono fun y hy => by rw [he]; simp [hy], h3⟩
  have hsame : ∀ c1 ∈ (run hash (init lo lh) hist).2, ∀ c2 ∈ (run hash (init lo lh) hist).2, c1.hid = hid → c1.nonce = nonce →
      c2.hid = hid → c2.nonce = nonce → keyOf hash c1 = keyOf hash c2 := by
    intro c1 hc1 c2 hc2 a1 a2 b1 b2
    apply Classical.byContradiction
    intro hne
    obtain ⟨v1, n1, s1, p1⟩ := hpow c1 hc1 a1
    obtain ⟨v2, n2, s2, p2⟩ := hpow c2 hc2 b1
    have hB : (bonded.filter (keyed hid)).Nodup := hnod.sublist List.filter_sublist
    rw [sum_perm_filter power hB n1 (hmem (keyOf hash c1) v1 a1 s1)] at p1
    rw [sum_perm_filter power hB n2 (hmem (keyOf hash c2) v2 b1 s2)] at p2
    have := sum_overlap power (fun v => decide (v ∈ v1)) (fun v => decide (v ∈ v2)) double
      (fun v h1 h2 => hdouble (keyOf hash c1) (keyOf hash c2) v a1 a2 b1 b2 hne (s1 v (of_decide_eq_true h1))
        (s2 v (of_decide_eq_true h2))) (bonded.filter (keyed hid))
    omega
  generalize (run hash (init lo lh) hist).2 = o at hnd hsame
  clear hj hpow hmem
  induction o with
  | nil => simp
  | cons c o ih =>
    rw [List.map_cons, List.nodup_cons] at hnd
    rw [List.filter_cons]
    have ih := ih hnd.2 (fun c1 h1 c2 h2 => hsame c1 (List.mem_cons_of_mem _ h1) c2 (List.mem_cons_of_mem _ h2))
    split
    · rename_i hc
      have hc := of_decide_eq_true hc
      have : o.filter (fun c => decide (c.hid = hid ∧ c.nonce = nonce)) = [] := by
        rw [List.filter_eq_nil_iff]
        intro d hd hdc
        have hdc := of_decide_eq_true hdc
        have := hsame c List.mem_cons_self d (List.mem_cons_of_mem _ hd) hc.1 hc.2 hdc.1 hdc.2
        exact hnd.1 (this ▸ List.mem_map_of_mem hd)
      rw [this]
      simp
    · exact ih

/-! ## Last observed and skipped nonces -/

/-- The last observed nonce of a chain is the greatest nonce of a claim that took effect, or the initial one. -/
theorem last_observed_is_greatest (lo lh : Nat → Nat) (hist : List (Env × Op)) (hr : NoContract hist) (hid : Nat) :
    (∀ c ∈ (run hash (init lo lh) hist).2, c.hid = hid → c.nonce ≤ (run hash (init lo lh) hist).1.lastObs hid) ∧
    lo hid ≤ (run hash (init lo lh) hist).1.lastObs hid ∧
    ((run hash (init lo lh) hist).1.lastObs hid = lo hid ∨
      ∃ c ∈ (run hash (init lo lh) hist).2, c.hid = hid ∧ c.nonce = (run hash (init lo lh) hist).1.lastObs hid) := by
  have i := run_obs (hash := hash) lo lh hist hr
  exact ⟨fun c hc h => h ▸ i.ub c hc, i.ge hid, i.att hid⟩

/-- A nonce is listed as skipped exactly if it lies between the initial and the last observed nonce and no claim with it has
taken effect. -/
theorem skipped_nonces_exact (lo lh : Nat → Nat) (hist : List (Env × Op)) (hr : NoContract hist) (hid n : Nat) :
    (∃ v, KV.get (run hash (init lo lh) hist).1.skipped (hid, n) = some v) ↔
      lo hid < n ∧ n < (run hash (init lo lh) hist).1.lastObs hid ∧
      ∀ c ∈ (run hash (init lo lh) hist).2, ¬ (c.hid = hid ∧ c.nonce = n) := by
  have i := run_obs (hash := hash) lo lh hist hr
  rw [← i.skip hid n, Option.isSome_iff_exists]

/-! ## Concrete histories -/

/-- An environment: height, powers, bonded validators, registered validators; orchestrators are the validators. -/
def envOf (height : Nat) (power : List Nat) (bonded keyed : List Nat) : Env :=
  { height := height
    power := fun v => power.getD v 0
    bonded := bonded
    keyed := fun _ v => keyed.contains v
    validatorOf := fun _ o => if keyed.contains o then some o else none
    hasData := fun _ _ => true }

/-- A deposit of an amount, reported by an orchestrator. -/
def dep (hid nonce : Nat) (amount : Int) (orch : Nat) : Claim :=
  .deposit hid nonce 100 (0x30 :: 0x78 :: List.replicate 40 0x61) amount (0x30 :: 0x78 :: List.replicate 40 0x62) [0x68] [] [] orch

/-- Validators 1, 2, 3 with powers 40, 35, 25 at a late height. -/
def env3 : Env := envOf 300000 [0, 40, 35, 25] [1, 2, 3] [1, 2, 3]

/-- Two of the validators report nonce 5, then the end of the block; then nonce 3; then again the first claim. -/
def hist3 : List (Env × Op) :=
  [(env3, .claim (dep 7 5 10 1)), (env3, .claim (dep 7 5 10 2)), (env3, .endBlock 7), (env3, .claim (dep 7 3 20 1)),
   (env3, .claim (dep 7 3 20 3)), (env3, .claim (dep 7 3 21 2)), (env3, .endBlock 7),
   (env3, .claim (dep 7 5 10 3)), (env3, .endBlock 7)]

example : (run id (init (fun _ => 1) (fun _ => 0)) hist3).2 = [dep 7 5 10 1] ∧
    (run id (init (fun _ => 1) (fun _ => 0)) hist3).1.lastObs 7 = 5 ∧
    ((run id (init (fun _ => 1) (fun _ => 0)) hist3).1.skipped.map (·.1)) = [(7, 4), (7, 3), (7, 2)] := by
  decide +kernel

/-- As before with one more validator for nonce 3. -/
def hist4 : List (Env × Op) :=
  hist3 ++ [(env3, .claim (dep 7 3 20 2)), (env3, .endBlock 7)]

example : (run id (init (fun _ => 1) (fun _ => 0)) hist4).2 = [dep 7 5 10 1, dep 7 3 20 1] ∧
    ((run id (init (fun _ => 1) (fun _ => 0)) hist4).1.skipped.map (·.1)) = [(7, 4), (7, 2)] := by
  decide +kernel

example : (∀ x ∈ hist4, 244300 ≤ x.1.height ∧ 34800 < x.1.height) := by decide +kernel

example : NoReset hist4 ∧ NoContract hist4 := by
  refine ⟨?_, ?_⟩
  · intro x hx
    simp only [hist4, hist3, List.cons_append, List.nil_append, List.mem_cons, List.not_mem_nil, or_false] at hx
    rcases hx with rfl | rfl | rfl | rfl | rfl | rfl | rfl | rfl | rfl | rfl | rfl <;> simp
  · intro x hx
    simp only [hist4, hist3, List.cons_append, List.nil_append, List.mem_cons, List.not_mem_nil, or_false] at hx
    rcases hx with rfl | rfl | rfl | rfl | rfl | rfl | rfl | rfl | rfl | rfl | rfl <;> simp

/-- Validators 1 and 2 sent the claim with nonce 5, and have the required power. -/
example : [1, 2].Nodup ∧ (∀ v ∈ [1, 2], Sent id hist3 (keyOf id (dep 7 5 10 1)) v) ∧
    ((env3.bonded.filter (env3.keyed 7)).map env3.power).sum * 66 / 100 ≤ ([1, 2].map env3.power).sum := by
  refine ⟨by decide, ?_, by decide +kernel⟩
  intro v hv
  rcases List.mem_cons.1 hv with rfl | hv
  · exact ⟨env3, dep 7 5 10 1, by simp [hist3], by decide +kernel, rfl, by decide +kernel, by decide +kernel⟩
  · rw [List.mem_singleton] at hv
    subst hv
    exact ⟨env3, dep 7 5 10 2, by simp [hist3], by decide +kernel, by decide +kernel, by decide +kernel, by decide +kernel⟩

/-- The hypotheses of `one_claim_per_nonce_partial` with no double voter: 100 < 132. -/
example : env3.bonded.Nodup ∧ ((env3.bonded.filter (env3.keyed 7)).map env3.power).sum +
    (((env3.bonded.filter (env3.keyed 7)).filter (fun _ => false)).map env3.power).sum <
      2 * (((env3.bonded.filter (env3.keyed 7)).map env3.power).sum * 66 / 100) := by
  decide +kernel

/-! ## Where the properties fail -/

/-- Validator 2 votes and gives up its key: its vote alone then has 66 percent of the remaining power, which is all held by
validator 1 that has not voted. -/
theorem departed_vote_counts :
    let before := envOf 300000 [0, 50, 50] [1, 2] [1, 2]
    let after := envOf 300001 [0, 50, 50] [1, 2] [1]
    (run id (init (fun _ => 1) (fun _ => 0)) [(before, .claim (dep 7 5 10 2)), (before, .endBlock 7)]).2 = [] ∧
    (run id (init (fun _ => 1) (fun _ => 0)) [(before, .claim (dep 7 5 10 2)), (before, .endBlock 7), (after, .endBlock 7)]).2 =
      [dep 7 5 10 2] := by
  decide +kernel

/-- With a total power of 1 the threshold is 0, and the vote of a validator without power suffices. -/
theorem zero_threshold :
    let env := envOf 300000 [0, 1, 0] [1, 2] [1, 2]
    (run id (init (fun _ => 1) (fun _ => 0)) [(env, .claim (dep 7 5 10 2)), (env, .endBlock 7)]).2 = [dep 7 5 10 2] := by
  decide +kernel

/-- Up to height 34800 one validator with 25 of 100 can make a claim take effect by voting three times. -/
theorem early_double_vote :
    let env := envOf 34800 [0, 40, 35, 25] [1, 2, 3] [1, 2, 3]
    (run id (init (fun _ => 1) (fun _ => 0)) [(env, .claim (dep 7 5 10 3)), (env, .claim (dep 7 5 10 3)),
      (env, .claim (dep 7 5 10 3)), (env, .endBlock 7)]).2 = [dep 7 5 10 3] := by
  decide +kernel

/-- Two conflicting claims for one nonce take effect although every validator sent one claim: after the first took effect
the power moves to the validator that sent the other. -/
theorem conflicting_claims_both_apply :
    let e1 := envOf 300000 [0, 70, 30] [1, 2] [1, 2]
    let e2 := envOf 300001 [0, 30, 70] [1, 2] [1, 2]
    (run id (init (fun _ => 1) (fun _ => 0)) [(e1, .claim (dep 7 2 10 1)), (e1, .claim (dep 7 2 99 2)), (e1, .endBlock 7),
      (e2, .endBlock 7)]).2 = [dep 7 2 10 1, dep 7 2 99 2] := by
  decide +kernel

/-- With a third of the power voting for both claims, both take effect in the same block. -/
theorem double_voters_both_apply :
    let e1 := envOf 300000 [0, 34, 33, 33] [1, 2, 3] [1, 2, 3]
    (run id (init (fun _ => 1) (fun _ => 0)) [(e1, .claim (dep 7 2 10 1)), (e1, .claim (dep 7 2 10 2)), (e1, .claim (dep 7 2 99 1)),
      (e1, .claim (dep 7 2 99 3)), (e1, .endBlock 7)]).2 = [dep 7 2 10 1, dep 7 2 99 1] := by
  decide +kernel

/-- A new contract for chain 8 removes the marks of chain 7: a deposit of chain 7 takes effect a second time. -/
theorem other_chain_replayed :
    let e := envOf 300000 [0, 100] [1] [1]
    (run id (init (fun _ => 1) (fun _ => 0)) [(e, .claim (dep 7 2 10 1)), (e, .claim (dep 7 3 10 1)), (e, .endBlock 7),
      (e, .claim (dep 7 2 10 1)), (e, .endBlock 7)]).2 = [dep 7 2 10 1, dep 7 3 10 1] ∧
    (run id (init (fun _ => 1) (fun _ => 0)) [(e, .claim (dep 7 2 10 1)), (e, .claim (dep 7 3 10 1)), (e, .endBlock 7),
      (e, .newContract 8 50), (e, .endBlock 8), (e, .claim (dep 7 2 10 1)), (e, .endBlock 7)]).2 =
      [dep 7 2 10 1, dep 7 3 10 1, dep 7 2 10 1] := by
  decide +kernel

/-- Setting the average block time of a chain removes its votes and marks: a deposit takes effect a second time. -/
theorem block_time_replays :
    let e := envOf 300000 [0, 100] [1] [1]
    (run id (init (fun _ => 1) (fun _ => 0)) [(e, .claim (dep 7 2 10 1)), (e, .endBlock 7), (e, .blockTime 7 4000),
      (e, .endBlock 7), (e, .claim (dep 7 2 10 1)), (e, .endBlock 7)]).2 = [dep 7 2 10 1, dep 7 2 10 1] := by
  decide +kernel

/-- Before height 244300 a claim takes effect a second time once its attestation has been pruned. -/
theorem early_replay :
    let e := envOf 244299 [0, 100] [1] [1]
    (run id (init (fun _ => 1) (fun _ => 0)) [(e, .claim (dep 7 2 10 1)), (e, .claim (dep 7 3 10 1)), (e, .endBlock 7),
      (e, .claim (dep 7 2 10 1)), (e, .endBlock 7)]).2 = [dep 7 2 10 1, dep 7 3 10 1, dep 7 2 10 1] := by
  decide +kernel

/-- The height of the counterparty chain recorded for an executed batch is the one its first reporter names: the others
reported height 100. -/
theorem first_reporter_sets_height :
    let e := envOf 300000 [0, 1, 99] [1, 2] [1, 2]
    let t := 0x30 :: 0x78 :: List.replicate 40 0x61
    (run id (init (fun _ => 1) (fun _ => 50)) [(e, .claim (.withdraw 7 2 99999999 1 t [] 1)), (e, .claim (.withdraw 7 2 100 1 t [] 2)),
      (e, .endBlock 7)]).1.lastHeight 7 = 99999999 := by
  decide +kernel

end Hyperion.Attest
