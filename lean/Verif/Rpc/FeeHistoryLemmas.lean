import Verif.Rpc.FeeHistorySpec
/-!
# Lemmas for C91
-/

namespace FeeHistory

/-- Total gas. -/
def gasOf (l : List (Nat × Int)) : Nat := (l.map (·.1)).sum

theorem gasOf_append (a b : List (Nat × Int)) : gasOf (a ++ b) = gasOf a + gasOf b := by
  unfold gasOf; rw [List.map_append, List.sum_append]

theorem gasOf_cons (e : Nat × Int) (l : List (Nat × Int)) : gasOf (e :: l) = e.1 + gasOf l := by
  unfold gasOf; rw [List.map_cons, List.sum_cons]

theorem gasOf_filter (f : Nat × Int → Bool) (l : List (Nat × Int)) : gasOf (l.filter f) ≤ gasOf l := by
  induction l with
  | nil => exact Nat.le_refl _
  | cons e l ih =>
    rw [List.filter_cons]
    split
    · rw [gasOf_cons, gasOf_cons]; omega
    · rw [gasOf_cons]; omega

theorem gasUpTo_perm {a b : List (Nat × Int)} (h : a.Perm b) (t : Int) : gasUpTo a t = gasUpTo b t := by
  unfold gasUpTo
  exact ((h.filter _).map _).sum_nat

theorem advance_spec (need : Nat) : ∀ (rest pre : List (Nat × Int)) (g : Nat) (t : Int),
    (pre = [] ∨ gasOf pre < need) →
    ∃ pre' g' t' rest', advance need (gasOf pre + g) t rest = (gasOf pre' + g', t', rest') ∧
      pre ++ (g, t) :: rest = pre' ++ (g', t') :: rest' ∧ (pre' = [] ∨ gasOf pre' < need) ∧
      (need ≤ gasOf pre' + g' ∨ rest' = []) := by
  intro rest
  induction rest with
  | nil => intro pre g t h; exact ⟨pre, g, t, [], rfl, rfl, h, .inr rfl⟩
  | cons e rest ih =>
    intro pre g t h
    unfold advance
    by_cases hlt : gasOf pre + g < need
    · rw [if_pos hlt]
      have hg : gasOf (pre ++ [(g, t)]) = gasOf pre + g := by
        rw [gasOf_append]; rfl
      obtain ⟨pre', g', t', rest', h1, h2, h3, h4⟩ := ih (pre ++ [(g, t)]) e.1 e.2 (.inr (by rw [hg]; exact hlt))
      rw [hg] at h1
      refine ⟨pre', g', t', rest', h1, ?_, h3, h4⟩
      rw [← h2, List.append_assoc]
      rfl
    · rw [if_neg hlt]
      exact ⟨pre, g, t, e :: rest, rfl, rfl, h, .inl (by omega)⟩

/-- Where the loop stands is the reward. -/
theorem stop_isReward {l pre rest : List (Nat × Int)} {g : Nat} {t : Int} {need : Nat}
    (hl : l = pre ++ (g, t) :: rest) (hs : l.Pairwise fun a b => a.2 ≤ b.2) (h1 : pre = [] ∨ gasOf pre < need)
    (h2 : need ≤ gasOf pre + g ∨ rest = []) : IsReward l need t := by
  subst hl
  rw [List.pairwise_append, List.pairwise_cons] at hs
  obtain ⟨_, ⟨hrest, _⟩, hpre⟩ := hs
  have hpt : ∀ e ∈ pre, e.2 ≤ t := fun e he => hpre e he (g, t) List.mem_cons_self
  refine .inr ⟨?_, ?_, ?_⟩
  · rw [List.mem_map]
    exact ⟨(g, t), by simp, rfl⟩
  · rcases h2 with h2 | h2
    · left
      refine Nat.le_trans h2 ?_
      unfold gasUpTo
      rw [List.filter_append, List.map_append, List.sum_append, List.filter_cons, if_pos (decide_eq_true (Int.le_refl t)),
        List.map_cons, List.sum_cons]
      rw [List.filter_eq_self.2 (fun e he => decide_eq_true (hpt e he))]
      unfold gasOf
      omega
    · right
      intro x hx
      rw [List.mem_map] at hx
      obtain ⟨e, he, rfl⟩ := hx
      rw [h2, List.mem_append] at he
      rcases he with he | he
      · exact hpt e he
      · rw [List.mem_singleton] at he
        rw [he]
        exact Int.le_refl _
  · intro x hx hlt
    have hz : (List.filter (fun e : Nat × Int => decide (e.2 ≤ x)) ((g, t) :: rest)) = [] := by
      rw [List.filter_eq_nil_iff]
      intro e he
      rw [decide_eq_true_iff]
      rcases List.mem_cons.1 he with rfl | he
      · dsimp only; omega
      · have := hrest e he
        dsimp only at this
        omega
    have hle : gasUpTo (pre ++ (g, t) :: rest) x ≤ gasOf pre := by
      unfold gasUpTo
      rw [List.filter_append, hz, List.append_nil]
      exact gasOf_filter _ _
    rcases h1 with h1 | h1
    · -- nothing before: no smaller tip
      subst h1
      rw [List.nil_append, List.mem_map] at hx
      obtain ⟨e, he, rfl⟩ := hx
      exfalso
      rcases List.mem_cons.1 he with rfl | he
      · exact absurd hlt (by dsimp only; omega)
      · have := hrest e he
        dsimp only at this
        omega
    · omega

theorem rewardLoop_spec {l : List (Nat × Int)} (hs : l.Pairwise fun a b => a.2 ≤ b.2) : ∀ (needs : List Nat)
    (pre rest : List (Nat × Int)) (g : Nat) (t : Int), l = pre ++ (g, t) :: rest → needs.Pairwise (· ≤ ·) →
    (∀ n ∈ needs, pre = [] ∨ gasOf pre < n) →
    (rewardLoop (gasOf pre + g) t rest needs).length = needs.length ∧
    ∀ (k n : Nat) (r : Int), needs[k]? = some n → (rewardLoop (gasOf pre + g) t rest needs)[k]? = some r → IsReward l n r := by
  intro needs
  induction needs with
  | nil => intro pre rest g t _ _ _; exact ⟨rfl, fun k n r h => by rw [List.getElem?_nil] at h; cases h⟩
  | cons need needs ih =>
    intro pre rest g t hl hp hpre
    obtain ⟨pre', g', t', rest', e1, e2, e3, e4⟩ := advance_spec need rest pre g t (hpre need List.mem_cons_self)
    rw [List.pairwise_cons] at hp
    have hl' : l = pre' ++ (g', t') :: rest' := by rw [hl, e2]
    obtain ⟨i1, i2⟩ := ih pre' rest' g' t' hl' hp.2 (fun n hn => by
      rcases e3 with e3 | e3
      · exact .inl e3
      · exact .inr (Nat.lt_of_lt_of_le e3 (hp.1 n hn)))
    have heq : rewardLoop (gasOf pre + g) t rest (need :: needs) = t' :: rewardLoop (gasOf pre' + g') t' rest' needs := by
      show (advance need (gasOf pre + g) t rest).2.1 :: rewardLoop (advance need (gasOf pre + g) t rest).1 _ _ needs = _
      rw [e1]
    rw [heq]
    refine ⟨by rw [List.length_cons, List.length_cons, i1], fun k n r hk hr => ?_⟩
    cases k with
    | zero =>
      rw [List.getElem?_cons_zero] at hk hr
      cases hk
      cases hr
      exact stop_isReward hl' hs e3 e4
    | succ k =>
      rw [List.getElem?_cons_succ] at hk hr
      exact i2 k n r hk hr

theorem isReward_perm {a b : List (Nat × Int)} (h : a.Perm b) {need : Nat} {t : Int} (hr : IsReward a need t) :
    IsReward b need t := by
  have hm : ∀ x, x ∈ a.map (·.2) ↔ x ∈ b.map (·.2) := fun x => (h.map _).mem_iff
  rcases hr with ⟨h1, h2⟩ | ⟨h1, h2, h3⟩
  · left
    refine ⟨?_, h2⟩
    rw [h1] at h
    exact h.nil_eq.symm
  · right
    refine ⟨(hm t).1 h1, ?_, fun x hx hlt => ?_⟩
    · rcases h2 with h2 | h2
      · exact .inl (by rw [← gasUpTo_perm h]; exact h2)
      · exact .inr fun x hx => h2 x ((hm x).2 hx)
    · rw [← gasUpTo_perm h]
      exact h3 x ((hm x).2 hx) hlt

theorem rewards_length (arrange : List (Nat × Int) → List (Nat × Int)) (i : Info) (ps : List Nat) :
    (rewards arrange i ps).length = ps.length := by
  unfold rewards
  split
  · rw [List.length_map]
  · rename_i e rest _
    have : ∀ (needs : List Nat) s t r, (rewardLoop s t r needs).length = needs.length := by
      intro needs
      induction needs with
      | nil => intro _ _ _; rfl
      | cons n ns ih => intro s t r; show (_ :: _).length = _; rw [List.length_cons, List.length_cons, ih]
    rw [this, List.length_map]

theorem row_eq (ps : List Nat) (o : One) (h : o.rewards.length = ps.length) : row ps o = o.rewards := by
  unfold row
  apply List.ext_getElem?
  intro k
  rw [List.getElem?_map]
  by_cases hk : k < ps.length
  · rw [List.getElem?_range hk, Option.map_some, List.getElem?_eq_getElem (by omega)]
    rfl
  · rw [List.getElem?_eq_none (by rw [List.length_range]; omega), List.getElem?_eq_none (by omega)]
    rfl

/-! ## The cache -/

/-- What is kept for a block is its own, for the percentiles. -/
def Kept (arrange : List (Nat × Int) → List (Nat × Int)) (ps : List Nat) (i : Info) (o : One) : Prop :=
  o.base = i.base ∧ o.used = i.used ∧ o.limit = i.limit ∧ o.rewards = rewards arrange i ps

/-- Everything kept (except under zero) is right. -/
def Inv (arrange : List (Nat × Int) → List (Nat × Int)) (ps : List Nat) (n : Node) : Prop :=
  ∀ e ∈ n.cache, 1 ≤ e.1 → e.1 ≤ n.latest ∧ Kept arrange ps (n.info e.1) e.2

theorem process_kept {arrange : List (Nat × Int) → List (Nat × Int)} {n : Node} {i : Info} {ps : List Nat} {o : One}
    (h : process arrange n i ps = some o) : Kept arrange ps i o := by
  unfold process at h
  split at h
  · cases h
  · cases h; exact ⟨rfl, rfl, rfl, rfl⟩

/-- The loop keeps blocks and heights and gives what belongs to each block. -/
theorem collect_spec (arrange : List (Nat × Int) → List (Nat × Int)) (ps : List Nat) : ∀ (ids : List Nat) (n : Node),
    Inv arrange ps n →
    (collect arrange ps n ids).1.latest = n.latest ∧ (collect arrange ps n ids).1.info = n.info ∧
    Inv arrange ps (collect arrange ps n ids).1 ∧
    ((∀ id ∈ ids, 1 ≤ id ∧ id ≤ n.latest ∧ (n.info id).limit ≠ 0) →
      ∃ os, (collect arrange ps n ids).2 = some os ∧ os.map (fun o => (o.base, o.used, o.limit, o.rewards)) =
        ids.map fun id => ((n.info id).base, (n.info id).used, (n.info id).limit, rewards arrange (n.info id) ps)) := by
  intro ids
  induction ids with
  | nil => intro n h; exact ⟨rfl, rfl, h, fun _ => ⟨[], rfl, rfl⟩⟩
  | cons id ids ih =>
    intro n h
    unfold collect
    cases hg : KV.get n.cache id with
    | some o =>
      obtain ⟨i1, i2, i3, i4⟩ := ih n h
      dsimp only
      cases hc : collect arrange ps n ids with
      | mk n' r =>
        rw [hc] at i1 i2 i3 i4
        cases r with
        | none =>
          dsimp only at *
          refine ⟨i1, i2, i3, fun hids => ?_⟩
          obtain ⟨os, ho, _⟩ := i4 fun x hx => hids x (.tail _ hx)
          cases ho
        | some os =>
          dsimp only at *
          refine ⟨i1, i2, i3, fun hids => ?_⟩
          obtain ⟨os', ho, hos⟩ := i4 fun x hx => hids x (.tail _ hx)
          cases ho
          refine ⟨o :: os, rfl, ?_⟩
          obtain ⟨h1, h2, _⟩ := hids id List.mem_cons_self
          obtain ⟨_, k1, k2, k3, k4⟩ := h _ (KV.mem_of_get hg) h1
          dsimp only at k1 k2 k3 k4
          rw [List.map_cons, List.map_cons, hos, k1, k2, k3, k4]
    | none =>
      dsimp only
      cases hf : (fetch n id).bind (fun i => process arrange n i ps) with
      | none =>
        refine ⟨rfl, rfl, h, fun hids => ?_⟩
        obtain ⟨h1, h2, h3⟩ := hids id List.mem_cons_self
        unfold fetch at hf
        rw [if_neg (by omega), if_pos h2, Option.bind_some] at hf
        unfold process at hf
        rw [if_neg h3] at hf
        cases hf
      | some o =>
        dsimp only
        obtain ⟨i, hi, hp⟩ := Option.bind_eq_some_iff.1 hf
        have hk := process_kept hp
        have hinv : Inv arrange ps { n with cache := KV.set n.cache id o } := by
          intro e he h1
          unfold KV.set at he
          rcases List.mem_cons.1 he with rfl | he
          · dsimp only at *
            unfold fetch at hi
            rw [if_neg (by omega)] at hi
            split at hi
            · rename_i hle
              cases hi
              exact ⟨hle, hk⟩
            · cases hi
          · unfold KV.del at he
            exact h e (List.mem_filter.1 he).1 h1
        obtain ⟨i1, i2, i3, i4⟩ := ih _ hinv
        cases hc : collect arrange ps { n with cache := KV.set n.cache id o } ids with
        | mk n' r =>
          rw [hc] at i1 i2 i3 i4
          cases r with
          | none =>
            dsimp only at *
            refine ⟨i1, i2, i3, fun hids => ?_⟩
            obtain ⟨os, ho, _⟩ := i4 fun x hx => hids x (.tail _ hx)
            cases ho
          | some os =>
            dsimp only at *
            refine ⟨i1, i2, i3, fun hids => ?_⟩
            obtain ⟨os', ho, hos⟩ := i4 fun x hx => hids x (.tail _ hx)
            cases ho
            refine ⟨o :: os, rfl, ?_⟩
            obtain ⟨h1, h2, _⟩ := hids id List.mem_cons_self
            unfold fetch at hi
            rw [if_neg (by omega), if_pos h2] at hi
            cases hi
            obtain ⟨k1, k2, k3, k4⟩ := hk
            rw [List.map_cons, List.map_cons, hos, k1, k2, k3, k4]

theorem ask_inv (arrange : List (Nat × Int) → List (Nat × Int)) (cap : Nat) (n : Node) (last count : Int) (ps : List Nat)
    (h : Inv arrange ps n) : Inv arrange ps (ask arrange cap n last count ps).1 := by
  unfold ask
  split
  · exact h
  · split
    · exact h
    · unfold gather
      have hc := collect_spec arrange ps (List.range' (stopOf n last + 1 - blocksOf (stopOf n last) count).toNat
        (blocksOf (stopOf n last) count).toNat) n h
      split
      · rename_i n' hn
        rw [hn] at hc
        exact hc.2.2.1
      · rename_i n' os hn
        rw [hn] at hc
        intro e he h1
        exact hc.2.2.1 e (List.mem_filter.1 he).1 h1

theorem run_inv (arrange : List (Nat × Int) → List (Nat × Int)) (cap : Nat) (n : Node) (hn : n.cache = []) (ps : List Nat)
    (os : List Op) (h : AllAsk ps os) : Inv arrange ps (run arrange cap n os) := by
  induction os with
  | nil => intro e he; rw [show (run arrange cap n []).cache = n.cache from rfl, hn] at he; cases he
  | cons o os ih =>
    have hi := ih fun x hx => h x (.tail _ hx)
    have ho := h o List.mem_cons_self
    show Inv arrange ps (step arrange cap (run arrange cap n os) o)
    cases o with
    | block i =>
      intro e he h1
      obtain ⟨h2, h3⟩ := hi e he h1
      unfold step
      dsimp only
      refine ⟨by omega, ?_⟩
      rw [if_neg (by omega)]
      exact h3
    | ask last count qs =>
      dsimp only at ho
      subst ho
      exact ask_inv arrange cap _ last count qs hi

end FeeHistory
