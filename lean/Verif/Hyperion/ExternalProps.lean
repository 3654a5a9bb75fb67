import Verif.Hyperion.ExternalLemmas2
/-!
# Properties of external data requests (C31, C53, C54)
-/
namespace Hyperion.External
open StableSort

/-! ## What the loop of a block does -/

theorem visit_log (env : Env) (x : State × Nat) (r : Req) : ∃ es, (visit env x r).1.log = es ++ x.1.log := by
  unfold visit
  split
  · show ∃ es, (refund env x.1 r).log = es ++ x.1.log
    unfold refund send
    split
    · split
      · exact ⟨[_], rfl⟩
      · exact ⟨[], rfl⟩
    · exact ⟨[], rfl⟩
  · split
    · exact ⟨[], rfl⟩
    · split
      · exact ⟨[], rfl⟩
      · unfold decideReq
        dsimp only
        split
        · obtain ⟨_, _, _, es, h, _⟩ := execute_eq env x.1 r (by assumption)
          exact ⟨es ++ .answered _ _ _ :: (x.1.reqs.filter (older r)).map _, by rw [h, List.append_assoc, List.cons_append]⟩
        · exact ⟨[], rfl⟩

theorem loop_log (env : Env) (L : List Req) (x : State × Nat) : ∃ es, (L.foldl (visit env) x).1.log = es ++ x.1.log := by
  induction L generalizing x with
  | nil => exact ⟨[], rfl⟩
  | cons r L ih =>
    obtain ⟨a, ha⟩ := ih (visit env x r)
    obtain ⟨b, hb⟩ := visit_log env x r
    exact ⟨a ++ b, by rw [List.foldl_cons, ha, hb, List.append_assoc]⟩

theorem loop_height (env : Env) (L : List Req) (x : State × Nat) : (L.foldl (visit env) x).1.height = x.1.height := by
  induction L generalizing x with
  | nil => rfl
  | cons r L ih => rw [List.foldl_cons, ih, visit_height]

theorem visit_answered {env : Env} {x : State × Nat} {r : Req} {n : Nat} {c : Claim} {vs : List Nat}
    (h : Event.answered n c vs ∈ (visit env x r).1.log) :
    Event.answered n c vs ∈ x.1.log ∨ (r.nonce = n ∧ vs = r.votes ∧ best env r = some c ∧ inWindow x.1.height r = true ∧
      required env ≤ x.2 + votePower env r.votes) := by
  unfold visit at h
  split at h
  · left
    change _ ∈ (refund env x.1 r).log at h
    unfold refund send at h
    split at h
    · split at h
      · rcases List.mem_cons.1 h with h | h
        · cases h
        · exact h
      · exact h
    · exact h
  · rename_i h1
    split at h
    · exact .inl h
    · rename_i h2
      split at h
      · exact .inl h
      · rename_i c' hb
        unfold decideReq at h
        dsimp only at h
        cases hc : count env r.votes x.2 with
        | mk a b =>
          rw [hc] at h
          cases b with
          | false => exact .inl h
          | true =>
            simp only [↓reduceIte] at h
            obtain ⟨_, _, _, es, hl, hes, _⟩ := execute_eq env x.1 r c'
            rw [hl] at h
            rcases mem_execute_log hes h with ⟨_, h⟩ | h | ⟨_, _, h⟩ | h
            · cases h
            · cases h
              obtain ⟨h3, h4⟩ := count_true hc
              refine .inr ⟨rfl, rfl, hb, ?_, by omega⟩
              simp [inWindow, h1, h2]
            · cases h
            · exact .inl h

/-- The power of the votes on a request if it is in its answer window at the height. -/
def openPower (env : Env) (height : Nat) (r : Req) : Nat := if inWindow height r then votePower env r.votes else 0

theorem visit_acc (env : Env) (x : State × Nat) (r : Req) : (visit env x r).2 ≤ x.2 + openPower env x.1.height r := by
  unfold visit openPower
  split
  · dsimp only; omega
  · rename_i h1
    split
    · omega
    · rename_i h2
      have hw : inWindow x.1.height r = true := by simp [inWindow, h1, h2]
      rw [if_pos hw]
      split
      · omega
      · exact count_le _ _

theorem loop_answered {env : Env} {n : Nat} {c : Claim} {vs : List Nat} (L : List Req) (x : State × Nat)
    (h : Event.answered n c vs ∈ (L.foldl (visit env) x).1.log) (h0 : Event.answered n c vs ∉ x.1.log) :
    ∃ L1 r L2, L = L1 ++ r :: L2 ∧ r.nonce = n ∧ vs = r.votes ∧ best env r = some c ∧ inWindow x.1.height r = true ∧
      required env ≤ x.2 + (L1.map (openPower env x.1.height)).sum + votePower env r.votes := by
  induction L generalizing x with
  | nil => exact absurd h h0
  | cons r L ih =>
    rw [List.foldl_cons] at h
    by_cases hv : Event.answered n c vs ∈ (visit env x r).1.log
    · rcases visit_answered hv with h1 | ⟨h1, h2, h3, h4, h5⟩
      · exact absurd h1 h0
      · exact ⟨[], r, L, rfl, h1, h2, h3, h4, by simpa using h5⟩
    · obtain ⟨L1, q, L2, e, h1, h2, h3, h4, h5⟩ := ih (visit env x r) h hv
      have ha := visit_acc env x r
      rw [visit_height] at h4 h5
      refine ⟨r :: L1, q, L2, by rw [e]; rfl, h1, h2, h3, h4, ?_⟩
      rw [List.map_cons, List.sum_cons]
      omega

theorem visit_answers {env : Env} (ho : ∀ l, (env.order l).Perm l) {x : State × Nat} {r : Req} (hc : r.claims ≠ [])
    (hw : inWindow x.1.height r = true) (hp : required env ≤ votePower env r.votes) :
    ∃ c, best env r = some c ∧ Event.answered r.nonce c r.votes ∈ (visit env x r).1.log := by
  obtain ⟨c, hb⟩ := best_some ho hc
  refine ⟨c, hb, ?_⟩
  simp only [inWindow, Bool.and_eq_true, Bool.not_eq_true', decide_eq_false_iff_not] at hw
  have hv : r.votes ≠ [] := by
    intro e
    unfold Req.votes at e
    exact hc (List.map_eq_nil_iff.1 e)
  unfold visit
  rw [if_neg hw.1, if_neg hw.2, hb]
  dsimp only
  unfold decideReq
  rw [count_enough (env := env) (acc := x.2) hv (by omega)]
  dsimp only
  obtain ⟨_, _, _, es, hl, _⟩ := execute_eq env x.1 r c
  rw [if_pos rfl, hl]
  exact List.mem_append_right _ List.mem_cons_self

theorem loop_answers {env : Env} (ho : ∀ l, (env.order l).Perm l) {r : Req} (hc : r.claims ≠ [])
    (hp : required env ≤ votePower env r.votes) (L : List Req) (x : State × Nat) (hr : r ∈ L)
    (hw : inWindow x.1.height r = true) :
    ∃ c, best env r = some c ∧ Event.answered r.nonce c r.votes ∈ (L.foldl (visit env) x).1.log := by
  induction L generalizing x with
  | nil => cases hr
  | cons q L ih =>
    rw [List.foldl_cons]
    rcases List.mem_cons.1 hr with rfl | hr
    · obtain ⟨c, h1, h2⟩ := visit_answers ho (x := x) hc hw hp
      obtain ⟨es, he⟩ := loop_log env L (visit env x r)
      exact ⟨c, h1, by rw [he]; exact List.mem_append_right _ h2⟩
    · exact ih (visit env x q) hr (by rw [visit_height]; exact hw)

theorem visit_sub (env : Env) (x : State × Nat) (r q : Req) (h : q ∈ (visit env x r).1.reqs) : q ∈ x.1.reqs := by
  unfold visit at h
  split at h
  · change q ∈ (refund env x.1 r).reqs.filter _ at h
    rw [(refund_frame env x.1 r).1] at h
    exact (List.mem_filter.1 h).1
  · split at h
    · exact h
    · split at h
      · exact h
      · unfold decideReq at h
        dsimp only at h
        split at h
        · rw [(execute_eq env x.1 r _).1] at h
          exact (List.mem_filter.1 h).1
        · exact h

theorem loop_sub (env : Env) (L : List Req) (x : State × Nat) (q : Req) (h : q ∈ (L.foldl (visit env) x).1.reqs) :
    q ∈ x.1.reqs := by
  induction L generalizing x with
  | nil => exact h
  | cons r L ih => rw [List.foldl_cons] at h; exact visit_sub env x r q (ih _ h)

theorem fee_le {s : State} (i : Inv s) {r : Req} (hr : r ∈ s.reqs) : r.fee ≤ s.held := by
  have h1 := ((remove_perm i.nodup hr).map (·.fee)).sum_nat
  rw [List.map_cons, List.sum_cons] at h1
  have := i.held
  omega

theorem loop_timeout {env : Env} (hp : env.pair = true) {r : Req} (L : List Req) (x : State × Nat) (i : Inv x.1)
    (hs : L.Pairwise (fun a b => a.nonce < b.nonce)) (hL : ∀ q ∈ L, q ∈ x.1.reqs) (hr : r ∈ L)
    (ht : r.timeout < x.1.height) :
    Event.refunded r.nonce r.sender r.fee ∈ (L.foldl (visit env) x).1.log ∧ r ∉ (L.foldl (visit env) x).1.reqs := by
  induction L generalizing x with
  | nil => cases hr
  | cons q L ih =>
    rw [List.foldl_cons]
    rw [List.pairwise_cons] at hs
    rcases List.mem_cons.1 hr with rfl | hr
    · have hrq := hL r List.mem_cons_self
      have hf := fee_le i hrq
      have hv : visit env x r = (remove (refund env x.1 r) r, x.2) := by unfold visit; rw [if_pos ht]
      constructor
      · obtain ⟨es, he⟩ := loop_log env L (visit env x r)
        rw [he]
        apply List.mem_append_right
        rw [hv]
        show _ ∈ (refund env x.1 r).log
        unfold refund send
        rw [if_pos hp, if_pos hf]
        exact List.mem_cons_self
      · intro h
        have h2 := loop_sub env L (visit env x r) r h
        rw [hv] at h2
        have h3 := (List.mem_filter.1 h2).2
        simp at h3
    · have i' : Inv (visit env x q).1 := by
        rcases visit_micro (env := env) (hL q List.mem_cons_self) with h | h
        · rw [h]; exact i
        · exact inv_micro i h
      exact ih (visit env x q) i' hs.2 (fun q' hq' => visit_keeps (hs.1 q' hq') (hL q' (List.mem_cons_of_mem _ hq'))) hr
        (by rw [visit_height]; exact ht)

/-! ## C31: answers need the voting threshold -/

/-- The property: whenever a block answers a request, its voters hold 33% of the power. -/
def AnsweredWithPower : Prop :=
  ∀ (ops : List Op) (env : Env) (n : Nat) (c : Claim) (vs : List Nat), (∀ l, (env.order l).Perm l) →
    Event.answered n c vs ∈ (run (.endBlock env :: ops)).log → Event.answered n c vs ∉ (run ops).log →
    env.total * 33 / 100 ≤ (vs.map env.power).sum

/-- Four validators of powers 20, 15, 1 and 64. -/
def powers (v : Nat) : Nat := if v = 1 then 20 else if v = 2 then 15 else if v = 3 then 1 else if v = 4 then 64 else 0

/-- The environment of the samples. -/
def env0 : Env := ⟨powers, 100, true, id⟩

/-- Two requests, the first with votes of power 35, the second with a single vote of power 1. -/
def carry : List Op :=
  [.claim 2 8 ⟨3, [0x62], []⟩, .claim 1 7 ⟨2, [0x61], []⟩, .claim 1 7 ⟨1, [0x61], []⟩] ++
    List.replicate 49 (.endBlock env0) ++ [.ask 11 8 500, .ask 10 7 300]

theorem env0_order (l : List Str) : (env0.order l).Perm l := .refl _

/-- The code violates C31: the counted power is not reset between the requests of a block, so the second request of the
sample is answered by one validator with 1% of the power. -/
theorem answered_without_power : ¬ AnsweredWithPower := by
  intro h
  have h1 := h carry env0 2 ⟨3, [0x62], []⟩ [3] env0_order (by decide +kernel) (by decide +kernel)
  exact absurd h1 (by decide +kernel)

/-- What holds: when a block answers a request, the votes of *all* requests in their answer window, up to this one in the
order of nonces, hold 33% of the power together. -/
theorem answered_needs_pooled_power {ops : List Op} {env : Env} {n : Nat} {c : Claim} {vs : List Nat}
    (h : Event.answered n c vs ∈ (run (.endBlock env :: ops)).log) (h0 : Event.answered n c vs ∉ (run ops).log) :
    ∃ (r : Req) (earlier : List Req), r ∈ (run ops).reqs ∧ r.nonce = n ∧ vs = r.votes ∧ c ∈ r.claims ∧ vs.Nodup ∧
      (∀ q ∈ earlier, q ∈ (run ops).reqs ∧ q.nonce < n) ∧ (earlier.map (·.nonce)).Nodup ∧
      env.total * 33 / 100 ≤ (earlier.map (openPower env ((run ops).height + 1))).sum + (vs.map env.power).sum := by
  have i := inv_run ops
  obtain ⟨L1, r, L2, e, h1, h2, h3, h4, h5⟩ := loop_answered (env := env) _ ({ run ops with height := (run ops).height + 1 }, 0) h h0
  have hs := sortBy_nonce _ i.nodup
  have hp := sortBy_perm (fun a b : Req => decide (a.nonce ≤ b.nonce)) (run ops).reqs
  rw [e] at hs hp
  have hmem : ∀ q ∈ L1 ++ r :: L2, q ∈ (run ops).reqs := fun q hq => hp.mem_iff.1 hq
  have hr := hmem r (by simp)
  refine ⟨r, L1, hr, h1, h2, best_mem h3, h2 ▸ i.votes r hr, ?_, ?_, ?_⟩
  · intro q hq
    refine ⟨hmem q (by simp [hq]), ?_⟩
    rw [← h1]
    exact (List.pairwise_append.1 hs).2.2 q hq r List.mem_cons_self
  · have := (hp.map (·.nonce)).nodup_iff.2 i.nodup
    rw [List.map_append] at this
    exact (List.nodup_append.1 this).1
  · dsimp only at h5
    rw [Nat.zero_add] at h5
    rw [h2]
    exact h5

/-- C31 in part: if no earlier request in its answer window has votes, the voters of the answered request hold 33% of the
power.  Missing: the case of several voted requests in one block, where it is false. -/
theorem answered_with_power_partial {ops : List Op} {env : Env} {n : Nat} {c : Claim} {vs : List Nat}
    (h : Event.answered n c vs ∈ (run (.endBlock env :: ops)).log) (h0 : Event.answered n c vs ∉ (run ops).log)
    (hq : ∀ q ∈ (run ops).reqs, q.nonce < n → inWindow ((run ops).height + 1) q = true → q.claims = []) :
    env.total * 33 / 100 ≤ (vs.map env.power).sum := by
  obtain ⟨r, earlier, _, _, _, _, _, h1, _, h2⟩ := answered_needs_pooled_power h h0
  have : (earlier.map (openPower env ((run ops).height + 1))).sum = 0 := by
    clear h2
    rename_i hnd
    clear hnd
    induction earlier with
    | nil => rfl
    | cons q l ih =>
      rw [List.map_cons, List.sum_cons, ih (fun x hx => h1 x (List.mem_cons_of_mem _ hx))]
      obtain ⟨h3, h4⟩ := h1 q List.mem_cons_self
      unfold openPower
      split
      · rename_i hw
        simp [Req.votes, hq q h3 h4 hw, votePower]
      · rfl
  omega

example : Event.answered 1 ⟨2, [0x61], []⟩ [1, 2] ∈ (run (.endBlock env0 :: carry)).log ∧
    Event.answered 1 ⟨2, [0x61], []⟩ [1, 2] ∉ (run carry).log ∧
    ∀ q ∈ (run carry).reqs, q.nonce < 1 → inWindow ((run carry).height + 1) q = true → q.claims = [] := by decide +kernel

/-- A request in its answer window whose voters hold 33% of the power is answered at the end of the block, whatever other
requests are pending, with a result that some voter reported. -/
theorem answered_when_enough {ops : List Op} {env : Env} (ho : ∀ l, (env.order l).Perm l) {r : Req}
    (hr : r ∈ (run ops).reqs) (hc : r.claims ≠ []) (h1 : (run ops).height + 1 ≤ r.timeout)
    (h2 : r.timeout ≤ (run ops).height + 1 + 50) (h3 : 50 ≤ r.timeout) (h4 : r.timeout < 2 ^ 64)
    (hp : env.total * 33 / 100 ≤ (r.votes.map env.power).sum) :
    ∃ c ∈ r.claims, Event.answered r.nonce c r.votes ∈ (run (.endBlock env :: ops)).log := by
  have hw : inWindow ((run ops).height + 1) r = true := by
    have : sub64 r.timeout 50 = r.timeout - 50 := by unfold sub64; omega
    simp only [inWindow, this, Bool.and_eq_true, Bool.not_eq_true', decide_eq_false_iff_not]
    omega
  obtain ⟨c, hb, h⟩ := loop_answers ho hc (hp := hp) (sortBy (fun a b : Req => decide (a.nonce ≤ b.nonce)) (run ops).reqs)
    ({ run ops with height := (run ops).height + 1 }, 0) ((sortBy_perm _ _).mem_iff.2 hr) hw
  exact ⟨c, best_mem hb, h⟩

example : (run carry).reqs.any (fun r => decide (r.nonce = 1 ∧ r.claims ≠ [] ∧ (run carry).height + 1 ≤ r.timeout ∧
    r.timeout ≤ (run carry).height + 1 + 50 ∧ env0.total * 33 / 100 ≤ (r.votes.map env0.power).sum)) = true := by
  decide +kernel

/-- Votes for different results are added up, and the result is chosen by the number of reporters, not by their power: two
validators with 16% of the power decide against one with 64%. -/
theorem few_decide_against_many :
    Event.answered 1 ⟨3, [0x62], []⟩ [4, 2, 3] ∈ (run (.endBlock env0 ::
      [.claim 1 7 ⟨3, [0x62], []⟩, .claim 1 7 ⟨2, [0x62], []⟩, .claim 1 7 ⟨4, [0x61], []⟩] ++
        List.replicate 49 (.endBlock env0) ++ [.ask 10 7 300])).log := by decide +kernel

/-! ## C53: the answer is the same on every node -/

/-- The property: the end of a block does not depend on the order in which Go iterates over a map. -/
def OrderIndependent : Prop :=
  ∀ (ops : List Op) (env : Env) (order : List Str → List Str), (∀ l, (env.order l).Perm l) → (∀ l, (order l).Perm l) →
    run (.endBlock { env with order := order } :: ops) = run (.endBlock env :: ops)

/-- Two validators report different results. -/
def tie : List Op :=
  [.claim 1 7 ⟨2, [0x62], []⟩, .claim 1 7 ⟨1, [0x61], []⟩] ++ List.replicate 49 (.endBlock env0) ++ [.ask 10 7 300]

/-- The code violates it: with as many reporters for one result as for another, the answer that is stored depends on the
iteration order, which Go chooses at random; nodes then disagree about the state. -/
theorem answer_depends_on_order : ¬ OrderIndependent := by
  intro h
  have h1 := h tie env0 List.reverse env0_order (fun l => List.reverse_perm l)
  have h2 := congrArg State.log h1
  revert h2
  decide +kernel

/-- How many reporters of a request gave the result of a claim. -/
def support (r : Req) (c : Claim) : Nat := (r.claims.filter (fun x => decide (x.result = c.result ∧ x.error = c.error))).length

theorem bar_split {a b a' b' : Str} (h : 0x7c ∉ a) (h' : 0x7c ∉ a') (e : a ++ 0x7c :: b = a' ++ 0x7c :: b') :
    a = a' ∧ b = b' := by
  induction a generalizing a' with
  | nil =>
    cases a' with
    | nil => simpa using e
    | cons y a' =>
      rw [List.nil_append, List.cons_append, List.cons.injEq] at e
      exact absurd (e.1 ▸ List.mem_cons_self) h'
  | cons x a ih =>
    cases a' with
    | nil =>
      rw [List.nil_append, List.cons_append, List.cons.injEq] at e
      exact absurd (e.1 ▸ List.mem_cons_self) h
    | cons y a' =>
      rw [List.cons_append, List.cons_append, List.cons.injEq] at e
      obtain ⟨h1, h2⟩ := ih (fun hx => h (List.mem_cons_of_mem _ hx)) (fun hx => h' (List.mem_cons_of_mem _ hx)) e.2
      exact ⟨by rw [e.1, h1], h2⟩

theorem claimKey_iff {n : Nat} {c c' : Claim} (h : 0x7c ∉ c.result) (h' : 0x7c ∉ c'.result) :
    claimKey n c = claimKey n c' ↔ c.result = c'.result ∧ c.error = c'.error := by
  constructor
  · intro e
    unfold claimKey at e
    rw [List.append_right_inj, List.cons.injEq] at e
    exact bar_split h h' e.2
  · rintro ⟨h1, h2⟩
    unfold claimKey
    rw [h1, h2]

theorem best_order {env : Env} {order : List Str → List Str} (ho : ∀ l, (env.order l).Perm l) (ho' : ∀ l, (order l).Perm l)
    {r : Req} (hb : ∀ c ∈ r.claims, 0x7c ∉ c.result)
    (hu : ∃ c ∈ r.claims, ∀ c' ∈ r.claims, (c'.result = c.result ∧ c'.error = c.error) ∨ support r c' < support r c) :
    best { env with order := order } r = best env r := by
  unfold best
  split
  · rfl
  · rfl
  · have hne : r.claims ≠ [] := by obtain ⟨c, hc, _⟩ := hu; intro e; rw [e] at hc; cases hc
    obtain ⟨⟨a, ha, ea⟩, ha2⟩ := pick_claims ho (n := r.nonce) hne
    obtain ⟨⟨b, hb', eb⟩, hb2⟩ := pick_claims (env := { env with order := order }) ho' (n := r.nonce) hne
    have hsup : ∀ c ∈ r.claims, (r.claims.filter (fun x => decide (claimKey r.nonce x = claimKey r.nonce c))).length = support r c := by
      intro c hc
      unfold support
      congr 1
      apply List.filter_congr
      intro x hx
      rw [decide_eq_decide]
      exact claimKey_iff (hb x hx) (hb c hc)
    have key : ∀ p : Str, (∃ c ∈ r.claims, claimKey r.nonce c = p) →
        (∀ k, (r.claims.filter (fun c => decide (claimKey r.nonce c = k))).length ≤
          (r.claims.filter (fun c => decide (claimKey r.nonce c = p))).length) →
        ∀ c ∈ r.claims, (∀ c' ∈ r.claims, (c'.result = c.result ∧ c'.error = c.error) ∨ support r c' < support r c) →
        p = claimKey r.nonce c := by
      rintro p ⟨d, hd, rfl⟩ hmax c hc hcu
      rcases hcu d hd with h | h
      · exact (claimKey_iff (hb d hd) (hb c hc)).2 h
      · have := hmax (claimKey r.nonce c)
        rw [hsup c hc, hsup d hd] at this
        omega
    obtain ⟨c, hc, hcu⟩ := hu
    have e1 := key _ ⟨a, ha, ea⟩ ha2 c hc hcu
    have e2 := key _ ⟨b, hb', eb⟩ hb2 c hc hcu
    rw [e1]
    dsimp only at e2
    rw [e2]

theorem visit_order {env : Env} {order : List Str → List Str} {r : Req} (x : State × Nat)
    (h : best { env with order := order } r = best env r) : visit { env with order := order } x r = visit env x r := by
  have hcount : ∀ vs acc, count { env with order := order } vs acc = count env vs acc := by
    intro vs
    induction vs with
    | nil => intro acc; rfl
    | cons v vs ih =>
      intro acc
      unfold count
      rw [ih]
      rfl
  unfold visit
  rw [h, hcount]
  rfl

/-- C53 in part: the end of a block is the same for all iteration orders if every pending request with claims has a result
that more validators reported than any other result, and results do not contain the separator (they are meant to be
hexadecimal).  Missing: ties, where it is false. -/
theorem order_independent_partial {ops : List Op} {env : Env} {order : List Str → List Str}
    (ho : ∀ l, (env.order l).Perm l) (ho' : ∀ l, (order l).Perm l)
    (hb : ∀ r ∈ (run ops).reqs, ∀ c ∈ r.claims, 0x7c ∉ c.result)
    (hu : ∀ r ∈ (run ops).reqs, r.claims ≠ [] →
      ∃ c ∈ r.claims, ∀ c' ∈ r.claims, (c'.result = c.result ∧ c'.error = c.error) ∨ support r c' < support r c) :
    run (.endBlock { env with order := order } :: ops) = run (.endBlock env :: ops) := by
  have hmem : ∀ r ∈ sortBy (fun a b : Req => decide (a.nonce ≤ b.nonce)) (run ops).reqs, r ∈ (run ops).reqs :=
    fun r hr => (sortBy_perm _ _).mem_iff.1 hr
  have key : ∀ (L : List Req) (x : State × Nat), (∀ r ∈ L, r ∈ (run ops).reqs) →
      L.foldl (visit { env with order := order }) x = L.foldl (visit env) x := by
    intro L
    induction L with
    | nil => intro x _; rw [List.foldl_nil, List.foldl_nil]
    | cons r L ih =>
      intro x hmem
      rw [List.foldl_cons, List.foldl_cons]
      have hr := hmem r List.mem_cons_self
      have hbest : best { env with order := order } r = best env r := by
        by_cases he : r.claims = []
        · unfold best; rw [he]
        · exact best_order ho ho' (hb r hr) (hu r hr he)
      rw [visit_order x hbest]
      exact ih _ (fun q hq => hmem q (List.mem_cons_of_mem _ hq))
  exact congrArg Prod.fst (key _ ({ run ops with height := (run ops).height + 1 }, 0) hmem)

example : (∀ r ∈ (run carry).reqs, ∀ c ∈ r.claims, 0x7c ∉ c.result) ∧
    ∀ r ∈ (run carry).reqs, r.claims ≠ [] →
      ∃ c ∈ r.claims, ∀ c' ∈ r.claims, (c'.result = c.result ∧ c'.error = c.error) ∨ support r c' < support r c := by
  decide +kernel

/-! ## C54: the fees -/

/-- The module always holds the fees of all pending requests. -/
theorem fees_covered (ops : List Op) : ((run ops).reqs.map (·.fee)).sum ≤ (run ops).held := (inv_run ops).held

example : ((run carry).reqs.map (·.fee)).sum = 800 ∧ (run carry).held = 800 := by decide +kernel

/-- A request ends at most once: it is refunded, answered or cancelled, and never two of these or one of them twice; while
it is pending none of them has happened, and nothing has been paid for it. -/
theorem ends_at_most_once (ops : List Op) (n : Nat) : endings n (run ops).log ≤ 1 ∧
    ∀ r ∈ (run ops).reqs, r.nonce = n → endings n (run ops).log = 0 ∧ paid n (run ops).log = 0 :=
  ⟨(inv_run ops).once n, fun r hr e => e ▸ (inv_run ops).clean r hr⟩

example : endings 1 (run (.endBlock env0 :: carry)).log = 1 ∧ endings 1 (run carry).log = 0 ∧
    (run carry).reqs.length = 2 := by decide +kernel

/-- All payments for a request together never exceed its fee, and a refund goes to the sender and is the whole fee. -/
theorem payments_bounded (ops : List Op) (n sender fee : Nat) (h : Event.asked n sender fee ∈ (run ops).log) :
    paid n (run ops).log ≤ fee ∧
    ∀ to amount, Event.refunded n to amount ∈ (run ops).log → to = sender ∧ amount = fee := by
  have i := inv_run ops
  refine ⟨i.bound n sender fee h, ?_⟩
  intro to amount hr
  exact i.uniq _ _ _ _ _ (i.refunds n to amount hr) h

example : Event.asked 1 10 300 ∈ (run (.endBlock env0 :: carry)).log ∧ paid 1 (run (.endBlock env0 :: carry)).log = 300 := by
  decide +kernel

/-- In the first block after its timeout a pending request is removed and its sender gets the fee back (if the fee coin has
its token pair). -/
theorem timeout_refunds {ops : List Op} {env : Env} (hp : env.pair = true) {r : Req} (hr : r ∈ (run ops).reqs)
    (ht : r.timeout < (run ops).height + 1) :
    Event.refunded r.nonce r.sender r.fee ∈ (run (.endBlock env :: ops)).log ∧ r ∉ (run (.endBlock env :: ops)).reqs := by
  have i := inv_run ops
  exact loop_timeout hp _ ({ run ops with height := (run ops).height + 1 }, 0) (inv_height i _) (sortBy_nonce _ i.nodup)
    (fun q hq => (sortBy_perm _ _).mem_iff.1 hq) ((sortBy_perm _ _).mem_iff.2 hr) ht

example : (run (List.replicate 100 (.endBlock env0) ++ [.ask 10 7 300])).reqs.any
    (fun r => decide (r.timeout < (run (List.replicate 100 (.endBlock env0) ++ [.ask 10 7 300])).height + 1)) = true := by
  decide +kernel

/-- The token pair of the fee coin was always there. -/
def Paired (ops : List Op) : Prop := ∀ env, Op.endBlock env ∈ ops → env.pair = true

theorem accounted_micro {env : Env} (hp : env.pair = true) {s t : State} (i : Inv s) (h : Micro env s t)
    (ha : ∀ n a f, Event.asked n a f ∈ s.log → (∃ r ∈ s.reqs, r.nonce = n) ∨ 1 ≤ endings n s.log) :
    ∀ n a f, Event.asked n a f ∈ t.log → (∃ r ∈ t.reqs, r.nonce = n) ∨ 1 ≤ endings n t.log := by
  cases h with
  | timeout r hr _ =>
    intro n a f hm
    have hlog : (remove (refund env s r) r).log = .refunded r.nonce r.sender r.fee :: s.log := by
      show (refund env s r).log = _
      unfold refund send
      rw [if_pos hp, if_pos (fee_le i hr)]
    rw [hlog] at hm ⊢
    rw [endings_cons]
    rcases List.mem_cons.1 hm with hm | hm
    · cases hm
    · by_cases e : r.nonce = n
      · right; simp [isEnd, e]
      · rcases ha n a f hm with ⟨q, hq, e1⟩ | h
        · left
          refine ⟨q, ?_, e1⟩
          show q ∈ (refund env s r).reqs.filter _
          rw [(refund_frame env s r).1, List.mem_filter]
          have : (q.nonce == r.nonce) = false := by simp; omega
          exact ⟨hq, by simp [this]⟩
        · right; omega
  | answer r c hr _ _ =>
    obtain ⟨hreqs, _, _, es, hlog, hes, _⟩ := execute_eq env s r c
    intro n a f hm
    have hm' : Event.asked n a f ∈ s.log := by
      rw [hlog] at hm
      rcases mem_execute_log hes hm with ⟨_, h⟩ | h | ⟨_, _, h⟩ | h
      · cases h
      · cases h
      · cases h
      · exact h
    rw [hlog, endings_append, endings_cons, endings_append, (endings_cancels n _).1, hreqs]
    rcases ha n a f hm' with ⟨q, hq, e1⟩ | h
    · by_cases e : r.nonce = n
      · right
        have : isEnd n (.answered r.nonce c r.votes) = true := by simp [isEnd, e]
        simp only [this, ↓reduceIte]
        omega
      · by_cases ho : older r q = true
        · right
          have : 0 < ((s.reqs.filter (older r)).map (·.nonce)).count n :=
            List.count_pos_iff.2 (List.mem_map.2 ⟨q, List.mem_filter.2 ⟨hq, ho⟩, e1⟩)
          omega
        · left
          refine ⟨q, List.mem_filter.2 ⟨hq, ?_⟩, e1⟩
          have h1 : (q.nonce == r.nonce) = false := by simp; omega
          simp [h1, ho]
    · right; omega

/-- Every accepted request is still pending or has ended in exactly one of the three ways. -/
theorem pending_or_ended {ops : List Op} (hp : Paired ops) {n sender fee : Nat}
    (h : Event.asked n sender fee ∈ (run ops).log) :
    (∃ r ∈ (run ops).reqs, r.nonce = n) ∨ endings n (run ops).log = 1 := by
  have key : ∀ n a f, Event.asked n a f ∈ (run ops).log → (∃ r ∈ (run ops).reqs, r.nonce = n) ∨ 1 ≤ endings n (run ops).log := by
    clear h
    induction ops with
    | nil => intro n a f h; cases h
    | cons op ops ih =>
      have ih := ih (fun env he => hp env (List.mem_cons_of_mem _ he))
      have i := inv_run ops
      intro n a f h
      cases op with
      | ask s' c' f' =>
        change Event.asked n a f ∈ Event.asked ((run ops).last + 1) s' f' :: (run ops).log at h
        show (∃ r ∈ Req.mk _ _ _ _ _ _ :: (run ops).reqs, r.nonce = n) ∨ 1 ≤ endings n (_ :: (run ops).log)
        rcases List.mem_cons.1 h with h | h
        · cases h; exact .inl ⟨_, List.mem_cons_self, rfl⟩
        · rcases ih n a f h with ⟨r, hr, e⟩ | h
          · exact .inl ⟨r, List.mem_cons_of_mem _ hr, e⟩
          · right; rw [endings_cons]; omega
      | skip => exact ih n a f h
      | claim m k c =>
        rcases ih n a f h with ⟨r, hr, e⟩ | h
        · exact .inl ⟨addClaim m k c r, List.mem_map_of_mem hr, (addClaim_eq m k c r).1.trans e⟩
        · exact .inr h
      | endBlock env =>
        have hpe := hp env List.mem_cons_self
        have hst := endBlock_steps (env := env) i
        have gen : ∀ s t, Steps env s t → Inv s →
            (∀ n a f, Event.asked n a f ∈ s.log → (∃ r ∈ s.reqs, r.nonce = n) ∨ 1 ≤ endings n s.log) →
            ∀ n a f, Event.asked n a f ∈ t.log → (∃ r ∈ t.reqs, r.nonce = n) ∨ 1 ≤ endings n t.log := by
          intro s t hs
          induction hs with
          | refl => intro _ h; exact h
          | cons hm _ ih2 => intro i h; exact ih2 (inv_micro i hm) (accounted_micro hpe i hm h)
        exact gen _ _ hst (inv_height i _) ih n a f h
  rcases key n sender fee h with h1 | h1
  · exact .inl h1
  · have := (inv_run ops).once n
    exact .inr (by omega)

example : Paired (.endBlock env0 :: carry) ∧ Event.asked 1 10 300 ∈ (run (.endBlock env0 :: carry)).log := by
  refine ⟨?_, by decide +kernel⟩
  intro env he
  simp [carry] at he
  subst he
  rfl

/-- The property that a requester gets the fee back or an answer: every ended request was refunded or answered. -/
def PaidOrAnswered : Prop :=
  ∀ (ops : List Op) (n : Nat), Paired ops → Event.cancelled n ∉ (run ops).log

/-- The code violates it: when a later request to the same contract is answered, an earlier one without enough votes is
deleted without refund and without answer; its fee stays in the module for good. -/
theorem cancelled_without_refund : ¬ PaidOrAnswered := by
  intro h
  refine h ([.endBlock env0, .claim 2 7 ⟨4, [0x62], []⟩] ++ List.replicate 49 (.endBlock env0) ++ [.ask 11 7 500, .ask 10 7 300]) 1 ?_
    (by decide +kernel)
  intro env he
  simp at he
  subst he
  rfl

/-- What a cancelled request paid is lost to its sender: nothing is ever paid for it. -/
theorem cancelled_fee_stays :
    paid 1 (run ([.endBlock env0, .claim 2 7 ⟨4, [0x62], []⟩] ++ List.replicate 49 (.endBlock env0) ++
      [.ask 11 7 500, .ask 10 7 300])).log = 0 ∧
    (run ([.endBlock env0, .claim 2 7 ⟨4, [0x62], []⟩] ++ List.replicate 49 (.endBlock env0) ++
      [.ask 11 7 500, .ask 10 7 300])).reqs = [] ∧
    (run ([.endBlock env0, .claim 2 7 ⟨4, [0x62], []⟩] ++ List.replicate 49 (.endBlock env0) ++
      [.ask 11 7 500, .ask 10 7 300])).held = 300 := by decide +kernel

end Hyperion.External
