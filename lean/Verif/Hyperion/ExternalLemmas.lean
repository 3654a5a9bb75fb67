import Verif.Hyperion.External
/-! Helper lemmas about external data requests. -/
namespace Hyperion.External
open StableSort

/-! ## Events -/

/-- Does the event end request `n`? -/
def isEnd (n : Nat) : Event → Bool
  | .refunded m _ _ => m == n
  | .cancelled m => m == n
  | .answered m _ _ => m == n
  | _ => false

/-- How often request `n` has ended. -/
def endings (n : Nat) (log : List Event) : Nat := log.countP (isEnd n)

/-- The coins an event pays out for request `n`. -/
def payment (n : Nat) : Event → Nat
  | .refunded m _ a => if m = n then a else 0
  | .rewarded m _ a => if m = n then a else 0
  | _ => 0

/-- The coins paid out for request `n`. -/
def paid (n : Nat) (log : List Event) : Nat := (log.map (payment n)).sum

theorem endings_cons (n : Nat) (e : Event) (l : List Event) : endings n (e :: l) = endings n l + if isEnd n e then 1 else 0 := by
  unfold endings
  rw [List.countP_cons]

theorem endings_append (n : Nat) (a b : List Event) : endings n (a ++ b) = endings n a + endings n b := by
  unfold endings
  rw [List.countP_append]

theorem paid_cons (n : Nat) (e : Event) (l : List Event) : paid n (e :: l) = payment n e + paid n l := by
  unfold paid
  rw [List.map_cons, List.sum_cons]

theorem paid_append (n : Nat) (a b : List Event) : paid n (a ++ b) = paid n a + paid n b := by
  unfold paid
  rw [List.map_append, List.sum_append_nat]

/-! ## The chosen claim -/

theorem byKey_aux (n : Nat) (P : Claim → Prop) (cs : List Claim) (m : List (Str × Claim))
    (hm : ∀ k c, KV.get m k = some c → P c ∧ claimKey n c = k) (hP : ∀ c ∈ cs, P c) (k : Str) (c : Claim)
    (h : KV.get (cs.foldl (fun m c => KV.set m (claimKey n c) c) m) k = some c) : P c ∧ claimKey n c = k := by
  induction cs generalizing m with
  | nil => exact hm k c h
  | cons x cs ih =>
    refine ih (KV.set m (claimKey n x) x) ?_ (fun c hc => hP c (List.mem_cons_of_mem _ hc)) h
    intro k c hk
    rw [KV.get_set] at hk
    split at hk
    · rename_i e
      cases hk
      exact ⟨hP x List.mem_cons_self, e.symm⟩
    · exact hm k c hk

theorem byKey_mem {n : Nat} {cs : List Claim} {k : Str} {c : Claim} (h : KV.get (byKey n cs) k = some c) :
    c ∈ cs ∧ claimKey n c = k :=
  byKey_aux n (· ∈ cs) cs [] (fun k c h => (by cases h)) (fun c hc => hc) k c h

theorem best_mem {env : Env} {r : Req} {c : Claim} (h : best env r = some c) : c ∈ r.claims := by
  unfold best at h
  split at h
  · cases h
  · rename_i e; cases h; rw [e]; exact List.mem_cons_self
  · exact (byKey_mem h).1

theorem freqs_aux (n : Nat) (cs : List Claim) (m : List (Str × Nat)) (k : Str) :
    (KV.get (cs.foldl (fun m c => KV.set m (claimKey n c) ((KV.get m (claimKey n c)).getD 0 + 1)) m) k).getD 0 =
      (KV.get m k).getD 0 + (cs.filter (fun c => decide (claimKey n c = k))).length := by
  induction cs generalizing m with
  | nil => rfl
  | cons x cs ih =>
    rw [List.foldl_cons, ih, KV.get_set, List.filter_cons]
    by_cases e : claimKey n x = k
    · subst e
      simp only [decide_true, ↓reduceIte, Option.getD_some, List.length_cons]
      omega
    · have e' : ¬ k = claimKey n x := fun h => e h.symm
      simp only [e, e', decide_false, Bool.false_eq_true, ↓reduceIte]

theorem freqs_get (n : Nat) (cs : List Claim) (k : Str) :
    (KV.get (freqs n cs) k).getD 0 = (cs.filter (fun c => decide (claimKey n c = k))).length := by
  unfold freqs
  rw [freqs_aux]
  simp [KV.get_nil]

theorem freqs_keys_aux (n : Nat) (cs : List Claim) (m : List (Str × Nat)) (c : Claim) (h : c ∈ cs ∨ (KV.get m (claimKey n c)).isSome) :
    (KV.get (cs.foldl (fun m c => KV.set m (claimKey n c) ((KV.get m (claimKey n c)).getD 0 + 1)) m) (claimKey n c)).isSome := by
  induction cs generalizing m with
  | nil =>
    rcases h with h | h
    · cases h
    · exact h
  | cons x cs ih =>
    rw [List.foldl_cons]
    apply ih
    rw [KV.get_set]
    by_cases e : claimKey n c = claimKey n x
    · rw [if_pos e]; exact .inr rfl
    · rw [if_neg e]
      rcases h with h | h
      · rcases List.mem_cons.1 h with rfl | h
        · exact absurd rfl e
        · exact .inl h
      · exact .inr h

theorem freqs_keys {n : Nat} {cs : List Claim} {c : Claim} (h : c ∈ cs) : claimKey n c ∈ (freqs n cs).map (·.1) := by
  have := freqs_keys_aux n cs [] c (.inl h)
  cases hg : KV.get (freqs n cs) (claimKey n c) with
  | none => unfold freqs at hg; rw [hg] at this; cases this
  | some v => exact List.mem_map_of_mem (f := (·.1)) (KV.mem_of_get hg)

theorem byKey_some_aux (n : Nat) (cs : List Claim) (m : List (Str × Claim)) (c : Claim)
    (h : c ∈ cs ∨ (KV.get m (claimKey n c)).isSome) :
    (KV.get (cs.foldl (fun m c => KV.set m (claimKey n c) c) m) (claimKey n c)).isSome := by
  induction cs generalizing m with
  | nil =>
    rcases h with h | h
    · cases h
    · exact h
  | cons x cs ih =>
    rw [List.foldl_cons]
    apply ih
    rw [KV.get_set]
    by_cases e : claimKey n c = claimKey n x
    · rw [if_pos e]; exact .inr rfl
    · rw [if_neg e]
      rcases h with h | h
      · rcases List.mem_cons.1 h with rfl | h
        · exact absurd rfl e
        · exact .inl h
      · exact .inr h

/-- The loop over the map ends with the greatest frequency and a key that has it. -/
theorem pick_spec (m : List (Str × Nat)) (ks : List Str) (b : Nat × Str) :
    (pick m ks b = b ∨ ((pick m ks b).2 ∈ ks ∧ (KV.get m (pick m ks b).2).getD 0 = (pick m ks b).1)) ∧
    b.1 ≤ (pick m ks b).1 ∧ ∀ k ∈ ks, (KV.get m k).getD 0 ≤ (pick m ks b).1 := by
  induction ks generalizing b with
  | nil => exact ⟨.inl rfl, Nat.le_refl _, fun k hk => (by cases hk)⟩
  | cons k ks ih =>
    simp only [pick]
    by_cases h : b.1 < (KV.get m k).getD 0
    · rw [if_pos h]
      obtain ⟨h1, h2, h3⟩ := ih ((KV.get m k).getD 0, k)
      dsimp only at h2
      refine ⟨?_, by omega, ?_⟩
      · rcases h1 with h1 | ⟨h1, h1'⟩
        · right; rw [h1]; exact ⟨List.mem_cons_self, rfl⟩
        · exact .inr ⟨List.mem_cons_of_mem _ h1, h1'⟩
      · intro k' hk'
        rcases List.mem_cons.1 hk' with rfl | hk'
        · exact h2
        · exact h3 k' hk'
    · rw [if_neg h]
      obtain ⟨h1, h2, h3⟩ := ih b
      refine ⟨?_, h2, ?_⟩
      · rcases h1 with h1 | ⟨h1, h1'⟩
        · exact .inl h1
        · exact .inr ⟨List.mem_cons_of_mem _ h1, h1'⟩
      · intro k' hk'
        rcases List.mem_cons.1 hk' with rfl | hk'
        · omega
        · exact h3 k' hk'

/-- With at least two claims the chosen key occurs, and no key occurs more often. -/
theorem pick_claims {env : Env} (ho : ∀ l, (env.order l).Perm l) {n : Nat} {cs : List Claim} (h : cs ≠ []) :
    (∃ c ∈ cs, claimKey n c = (pick (freqs n cs) (env.order ((freqs n cs).map (·.1))) (0, [])).2) ∧
    ∀ k, (cs.filter (fun c => decide (claimKey n c = k))).length ≤ (cs.filter (fun c => decide (claimKey n c =
      (pick (freqs n cs) (env.order ((freqs n cs).map (·.1))) (0, [])).2))).length := by
  generalize hp : pick (freqs n cs) (env.order ((freqs n cs).map (·.1))) (0, []) = p
  obtain ⟨h1, _, h3⟩ := pick_spec (freqs n cs) (env.order ((freqs n cs).map (·.1))) (0, [])
  rw [hp] at h1 h3
  have hk : ∀ c ∈ cs, (cs.filter (fun x => decide (claimKey n x = claimKey n c))).length ≤ p.1 := by
    intro c hc
    rw [← freqs_get]
    exact h3 _ ((ho _).mem_iff.2 (freqs_keys hc))
  have hpos : 0 < p.1 := by
    obtain ⟨c, hc⟩ := List.exists_mem_of_ne_nil cs h
    have := hk c hc
    have h2 : 0 < (cs.filter (fun x => decide (claimKey n x = claimKey n c))).length :=
      List.length_pos_of_mem (List.mem_filter.2 ⟨hc, decide_eq_true rfl⟩)
    omega
  have hf : (cs.filter (fun c => decide (claimKey n c = p.2))).length = p.1 := by
    rcases h1 with h1 | ⟨_, h1⟩
    · rw [h1] at hpos; exact absurd hpos (by decide)
    · rw [← freqs_get]; exact h1
  rw [hf]
  constructor
  · cases hx : cs.filter (fun c => decide (claimKey n c = p.2)) with
    | nil => rw [hx] at hf; rw [← hf] at hpos; exact absurd hpos (by decide)
    | cons c _ =>
      have hc : c ∈ cs.filter (fun c => decide (claimKey n c = p.2)) := by rw [hx]; exact List.mem_cons_self
      obtain ⟨a, b⟩ := List.mem_filter.1 hc
      exact ⟨c, a, of_decide_eq_true b⟩
  · intro k
    cases hx : cs.filter (fun c => decide (claimKey n c = k)) with
    | nil => simp
    | cons c cs' =>
      have hc : c ∈ cs.filter (fun c => decide (claimKey n c = k)) := by rw [hx]; exact List.mem_cons_self
      obtain ⟨a, b⟩ := List.mem_filter.1 hc
      have e : claimKey n c = k := of_decide_eq_true b
      rw [← hx, ← e]
      exact hk c a

theorem best_some {env : Env} (ho : ∀ l, (env.order l).Perm l) {r : Req} (h : r.claims ≠ []) : ∃ c, best env r = some c := by
  unfold best
  split
  · rename_i e; exact absurd e h
  · exact ⟨_, rfl⟩
  · obtain ⟨⟨c, hc, e⟩, _⟩ := pick_claims ho (n := r.nonce) h
    have := byKey_some_aux r.nonce r.claims [] c (.inl hc)
    rw [← e]
    exact Option.isSome_iff_exists.1 this

/-! ## Counting votes -/

/-- The power of the voters of a request. -/
def votePower (env : Env) (vs : List Nat) : Nat := (vs.map env.power).sum

theorem count_true {env : Env} {vs : List Nat} {acc x : Nat} (h : count env vs acc = (x, true)) :
    required env ≤ x ∧ x ≤ acc + votePower env vs := by
  induction vs generalizing acc with
  | nil => cases h
  | cons v vs ih =>
    unfold count at h
    unfold votePower
    rw [List.map_cons, List.sum_cons]
    split at h
    · cases h; omega
    · have := ih h
      unfold votePower at this
      omega

theorem count_le {env : Env} (vs : List Nat) (acc : Nat) : (count env vs acc).1 ≤ acc + votePower env vs := by
  induction vs generalizing acc with
  | nil => exact Nat.le_add_right _ _
  | cons v vs ih =>
    unfold count votePower
    rw [List.map_cons, List.sum_cons]
    split
    · dsimp only; omega
    · have := ih (acc + env.power v)
      unfold votePower at this
      omega

theorem count_enough {env : Env} {vs : List Nat} {acc : Nat} (hv : vs ≠ []) (h : required env ≤ acc + votePower env vs) :
    (count env vs acc).2 = true := by
  induction vs generalizing acc with
  | nil => exact absurd rfl hv
  | cons v vs ih =>
    unfold count
    unfold votePower at h
    rw [List.map_cons, List.sum_cons] at h
    split
    · rfl
    · rename_i hn
      cases vs with
      | nil => simp at h; omega
      | cons w vs => exact ih (by simp) (by unfold votePower; omega)

/-! ## Small steps of the end of a block -/

/-- What happens to one request: it is refunded because it is overdue, or answered. -/
inductive Micro (env : Env) : State → State → Prop where
  | timeout (s : State) (r : Req) : r ∈ s.reqs → r.timeout < s.height → Micro env s (remove (refund env s r) r)
  | answer (s : State) (r : Req) (c : Claim) : r ∈ s.reqs → inWindow s.height r = true → c ∈ r.claims →
      Micro env s (execute env s r c)

/-- Any number of them. -/
inductive Steps (env : Env) : State → State → Prop where
  | refl (s : State) : Steps env s s
  | cons {s t u : State} : Micro env s t → Steps env t u → Steps env s u

theorem send_frame (s : State) (a : Nat) (e : Event) : (send s a e).reqs = s.reqs ∧ (send s a e).last = s.last ∧
    (send s a e).height = s.height := by
  unfold send; split <;> exact ⟨rfl, rfl, rfl⟩

theorem refund_frame (env : Env) (s : State) (r : Req) : (refund env s r).reqs = s.reqs ∧ (refund env s r).last = s.last ∧
    (refund env s r).height = s.height := by
  unfold refund
  split
  · exact send_frame _ _ _
  · exact ⟨rfl, rfl, rfl⟩

theorem rewards_frame (n each : Nat) (vs : List Nat) (s : State) :
    (vs.foldl (fun s v => send s each (.rewarded n v each)) s).reqs = s.reqs ∧
    (vs.foldl (fun s v => send s each (.rewarded n v each)) s).last = s.last ∧
    (vs.foldl (fun s v => send s each (.rewarded n v each)) s).height = s.height ∧
    ∃ es : List Event, (vs.foldl (fun s v => send s each (.rewarded n v each)) s).log = es ++ s.log ∧
      (∀ e ∈ es, ∃ v ∈ vs, e = .rewarded n v each) ∧ es.length ≤ vs.length ∧
      (vs.foldl (fun s v => send s each (.rewarded n v each)) s).held + es.length * each = s.held ∧
      (vs.length * each ≤ s.held → es.length = vs.length) := by
  induction vs generalizing s with
  | nil => exact ⟨rfl, rfl, rfl, [], rfl, fun e he => (by cases he), Nat.le_refl _, by simp, fun _ => rfl⟩
  | cons v vs ih =>
    rw [List.foldl_cons]
    obtain ⟨h1, h2, h3, es, h4, h5, h6, h7, h8⟩ := ih (send s each (.rewarded n v each))
    obtain ⟨g1, g2, g3⟩ := send_frame s each (.rewarded n v each)
    refine ⟨h1.trans g1, h2.trans g2, h3.trans g3, ?_⟩
    unfold send at h4 h7 h8
    by_cases hle : each ≤ s.held
    · rw [if_pos hle] at h4 h7 h8
      dsimp only at h4 h7 h8
      refine ⟨es ++ [.rewarded n v each], ?_, ?_, ?_, ?_, ?_⟩
      · unfold send; rw [if_pos hle]; rw [h4]; simp
      · intro e he
        rcases List.mem_append.1 he with he | he
        · obtain ⟨w, hw, e1⟩ := h5 e he
          exact ⟨w, List.mem_cons_of_mem _ hw, e1⟩
        · rw [List.mem_singleton] at he
          exact ⟨v, List.mem_cons_self, he⟩
      · simp only [List.length_append, List.length_cons, List.length_nil]; omega
      · unfold send; rw [if_pos hle]
        simp only [List.length_append, List.length_cons, List.length_nil]
        rw [Nat.add_mul]
        omega
      · intro hh
        simp only [List.length_append, List.length_cons, List.length_nil] at *
        rw [h8]
        rw [Nat.add_mul] at hh
        omega
    · rw [if_neg hle] at h4 h7 h8
      refine ⟨es, ?_, ?_, ?_, ?_, ?_⟩
      · unfold send; rw [if_neg hle]; exact h4
      · intro e he
        obtain ⟨w, hw, e1⟩ := h5 e he
        exact ⟨w, List.mem_cons_of_mem _ hw, e1⟩
      · rw [List.length_cons]; omega
      · unfold send; rw [if_neg hle]; exact h7
      · intro hh
        rw [List.length_cons, Nat.add_mul] at hh
        omega

/-- What answering a request does. -/
theorem execute_eq (env : Env) (s : State) (r : Req) (c : Claim) :
    (execute env s r c).reqs = s.reqs.filter (fun q => !older r q && !(q.nonce == r.nonce && q.contract == r.contract)) ∧
    (execute env s r c).last = s.last ∧ (execute env s r c).height = s.height ∧
    ∃ es : List Event, (execute env s r c).log =
        es ++ .answered r.nonce c r.votes :: ((s.reqs.filter (older r)).map (fun q => Event.cancelled q.nonce) ++ s.log) ∧
      (∀ e ∈ es, ∃ v ∈ r.votes, e = .rewarded r.nonce v (r.fee / r.votes.length)) ∧ es.length ≤ r.votes.length ∧
      (execute env s r c).held + es.length * (r.fee / r.votes.length) = s.held ∧
      (env.pair = true → r.fee ≤ s.held → es.length = r.votes.length) := by
  unfold execute reward
  by_cases hp : env.pair = true
  · rw [if_pos hp]
    obtain ⟨h1, h2, h3, es, h4, h5, h6, h7, h8⟩ := rewards_frame r.nonce (r.fee / r.votes.length) r.votes
      { remove (cancelOlder s r) r with log := .answered r.nonce c r.votes :: (remove (cancelOlder s r) r).log }
    refine ⟨h1.trans ?_, h2, h3, es, h4, h5, h6, h7, ?_⟩
    · unfold remove cancelOlder
      dsimp only
      rw [List.filter_filter]
      congr 1
      funext q
      rw [Bool.and_comm]
    · intro _ hh
      apply h8
      have := Nat.mul_div_le r.fee r.votes.length
      exact Nat.le_trans this hh
  · rw [if_neg hp]
    refine ⟨?_, rfl, rfl, [], rfl, fun e he => (by cases he), Nat.zero_le _, ?_, fun h => absurd h hp⟩
    · unfold remove cancelOlder
      dsimp only
      rw [List.filter_filter]
      congr 1
      funext q
      rw [Bool.and_comm]
    · simp [remove, cancelOlder]

theorem sortBy_nonce (l : List Req) (h : (l.map (·.nonce)).Nodup) :
    (sortBy (fun a b : Req => decide (a.nonce ≤ b.nonce)) l).Pairwise (fun a b => a.nonce < b.nonce) := by
  have h1 := sortBy_pairwise (le := fun a b : Req => decide (a.nonce ≤ b.nonce))
    (fun a b c h1 h2 => by simp only [decide_eq_true_eq] at *; omega)
    (fun a b => by simp only [Bool.or_eq_true, decide_eq_true_eq]; omega) l
  have h2 : ((sortBy (fun a b : Req => decide (a.nonce ≤ b.nonce)) l).map (·.nonce)).Nodup :=
    ((sortBy_perm _ l).map (·.nonce)).nodup_iff.2 h
  rw [List.Nodup, List.pairwise_map] at h2
  refine (h1.and h2).imp ?_
  intro a b hab
  simp only [decide_eq_true_eq] at hab
  omega

theorem visit_height (env : Env) (x : State × Nat) (r : Req) : (visit env x r).1.height = x.1.height := by
  unfold visit
  split
  · exact (refund_frame env x.1 r).2.2
  · split
    · rfl
    · split
      · rfl
      · unfold decideReq
        dsimp only
        split
        · exact (execute_eq env x.1 r _).2.2.1
        · rfl

/-- Visiting a request leaves the later ones alone. -/
theorem visit_keeps {env : Env} {x : State × Nat} {r q : Req} (h : r.nonce < q.nonce) (hq : q ∈ x.1.reqs) :
    q ∈ (visit env x r).1.reqs := by
  unfold visit
  split
  · show q ∈ (refund env x.1 r).reqs.filter _
    rw [(refund_frame env x.1 r).1, List.mem_filter]
    refine ⟨hq, ?_⟩
    have : (q.nonce == r.nonce) = false := by simp; omega
    simp [this]
  · split
    · exact hq
    · split
      · exact hq
      · unfold decideReq
        dsimp only
        split
        · rw [(execute_eq env x.1 r _).1, List.mem_filter]
          refine ⟨hq, ?_⟩
          have h1 : (q.nonce == r.nonce) = false := by simp; omega
          have h2 : decide (q.nonce < r.nonce) = false := by simp; omega
          simp [older, h1, h2]
        · exact hq

theorem visit_micro {env : Env} {x : State × Nat} {r : Req} (hr : r ∈ x.1.reqs) :
    (visit env x r).1 = x.1 ∨ Micro env x.1 (visit env x r).1 := by
  unfold visit
  split
  · rename_i h; exact .inr (.timeout _ _ hr h)
  · rename_i h
    split
    · exact .inl rfl
    · rename_i h'
      split
      · exact .inl rfl
      · rename_i c hc
        unfold decideReq
        dsimp only
        split
        · exact .inr (.answer _ _ c hr (by simp [inWindow, h, h']) (best_mem hc))
        · exact .inl rfl

theorem loop_steps {env : Env} (L : List Req) (x : State × Nat) (hs : L.Pairwise (fun a b => a.nonce < b.nonce))
    (hL : ∀ r ∈ L, r ∈ x.1.reqs) : Steps env x.1 (L.foldl (visit env) x).1 := by
  induction L generalizing x with
  | nil => exact .refl _
  | cons r L ih =>
    rw [List.pairwise_cons] at hs
    have i := ih (visit env x r) hs.2 (fun q hq => visit_keeps (hs.1 q hq) (hL q (List.mem_cons_of_mem _ hq)))
    rw [List.foldl_cons]
    rcases visit_micro (env := env) (hL r List.mem_cons_self) with h | h
    · rw [h] at i; exact i
    · exact .cons h i

end Hyperion.External
