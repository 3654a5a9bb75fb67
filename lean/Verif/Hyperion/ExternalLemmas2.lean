import Verif.Hyperion.ExternalLemmas
/-! Invariants of external data requests. -/
namespace Hyperion.External
open StableSort

/-- What holds after every history. -/
structure Inv (s : State) : Prop where
  nodup : (s.reqs.map (·.nonce)).Nodup
  le : ∀ r ∈ s.reqs, r.nonce ≤ s.last
  votes : ∀ r ∈ s.reqs, r.votes.Nodup
  asked : ∀ r ∈ s.reqs, Event.asked r.nonce r.sender r.fee ∈ s.log
  askedLe : ∀ n a f, Event.asked n a f ∈ s.log → n ≤ s.last
  uniq : ∀ n a f a' f', Event.asked n a f ∈ s.log → Event.asked n a' f' ∈ s.log → a = a' ∧ f = f'
  clean : ∀ r ∈ s.reqs, endings r.nonce s.log = 0 ∧ paid r.nonce s.log = 0
  fresh : ∀ n, s.last < n → endings n s.log = 0 ∧ paid n s.log = 0
  once : ∀ n, endings n s.log ≤ 1
  bound : ∀ n a f, Event.asked n a f ∈ s.log → paid n s.log ≤ f
  refunds : ∀ n a f, Event.refunded n a f ∈ s.log → Event.asked n a f ∈ s.log
  held : (s.reqs.map (·.fee)).sum ≤ s.held

theorem inv_init : Inv ⟨[], 0, 0, 0, []⟩ :=
  ⟨List.nodup_nil, fun r h => (by cases h), fun r h => (by cases h), fun r h => (by cases h), fun n a f h => (by cases h),
    fun n a f a' f' h => (by cases h), fun r h => (by cases h), fun n _ => ⟨rfl, rfl⟩, fun n => Nat.zero_le _,
    fun n a f h => (by cases h), fun n a f h => (by cases h), Nat.le_refl _⟩

theorem eq_of_nonce {l : List Req} (h : (l.map (·.nonce)).Nodup) {a b : Req} (ha : a ∈ l) (hb : b ∈ l) (e : a.nonce = b.nonce) :
    a = b := by
  induction l with
  | nil => cases ha
  | cons x l ih =>
    rw [List.map_cons, List.nodup_cons] at h
    rcases List.mem_cons.1 ha with rfl | ha' <;> rcases List.mem_cons.1 hb with rfl | hb'
    · rfl
    · exact absurd (e ▸ List.mem_map_of_mem (f := (·.nonce)) hb') h.1
    · exact absurd (e ▸ List.mem_map_of_mem (f := (·.nonce)) ha') h.1
    · exact ih h.2 ha' hb'

theorem remove_perm {l : List Req} (h : (l.map (·.nonce)).Nodup) {r : Req} (hr : r ∈ l) :
    l.Perm (r :: l.filter (fun q => !(q.nonce == r.nonce && q.contract == r.contract))) := by
  induction l with
  | nil => cases hr
  | cons x l ih =>
    rw [List.map_cons, List.nodup_cons] at h
    rcases List.mem_cons.1 hr with rfl | hr'
    · rw [List.filter_cons, if_neg (by simp)]
      have : l.filter (fun q => !(q.nonce == r.nonce && q.contract == r.contract)) = l := by
        rw [List.filter_eq_self]
        intro q hq
        have : (q.nonce == r.nonce) = false := by
          simp only [beq_eq_false_iff_ne]
          intro e
          exact h.1 (e ▸ List.mem_map_of_mem (f := (·.nonce)) hq)
        simp [this]
      rw [this]
    · have hne : (x.nonce == r.nonce) = false := by
        simp only [beq_eq_false_iff_ne]
        intro e
        exact h.1 (e ▸ List.mem_map_of_mem (f := (·.nonce)) hr')
      rw [List.filter_cons, if_pos (by simp [hne])]
      exact ((ih h.2 hr').cons x).trans (.swap _ _ _)

theorem sum_filter_le (p : Req → Bool) (l : List Req) : ((l.filter p).map (·.fee)).sum ≤ (l.map (·.fee)).sum := by
  induction l with
  | nil => exact Nat.le_refl _
  | cons x l ih =>
    rw [List.filter_cons]
    split
    · simp only [List.map_cons, List.sum_cons]; omega
    · simp only [List.map_cons, List.sum_cons]; omega

theorem inv_timeout {env : Env} {s : State} (i : Inv s) {r : Req} (hr : r ∈ s.reqs) : Inv (remove (refund env s r) r) := by
  have hp := remove_perm i.nodup hr
  have hsum := (hp.map (·.fee)).sum_nat
  rw [List.map_cons, List.sum_cons] at hsum
  have hheld := i.held
  have hreqs : (remove (refund env s r) r).reqs = s.reqs.filter (fun q => !(q.nonce == r.nonce && q.contract == r.contract)) := by
    unfold remove; rw [(refund_frame env s r).1]
  have hlast : (remove (refund env s r) r).last = s.last := (refund_frame env s r).2.1
  have hsub : ∀ q ∈ (remove (refund env s r) r).reqs, q ∈ s.reqs ∧ q.nonce ≠ r.nonce := by
    intro q hq
    rw [hreqs] at hq
    have hq' := (List.mem_filter.1 hq).1
    refine ⟨hq', fun e => ?_⟩
    have := eq_of_nonce i.nodup hq' hr e
    subst this
    simp at hq
  have hnd : ((remove (refund env s r) r).reqs.map (·.nonce)).Nodup := by
    rw [hreqs]; exact List.Nodup.sublist (List.filter_sublist.map _) i.nodup
  have hlog : (remove (refund env s r) r).log = (refund env s r).log := rfl
  have hh : (remove (refund env s r) r).held = (refund env s r).held := rfl
  generalize remove (refund env s r) r = t at *
  unfold refund send at hlog hh
  by_cases hpair : env.pair = true
  · rw [if_pos hpair, if_pos (by omega)] at hlog hh
    dsimp only at hlog hh
    constructor
    · exact hnd
    · intro q hq; rw [hlast]; exact i.le q (hsub q hq).1
    · intro q hq; exact i.votes q (hsub q hq).1
    · intro q hq; rw [hlog]; exact List.mem_cons_of_mem _ (i.asked q (hsub q hq).1)
    · intro n a f h
      rw [hlog] at h
      rw [hlast]
      rcases List.mem_cons.1 h with h | h
      · cases h
      · exact i.askedLe n a f h
    · intro n a f a' f' h h'
      rw [hlog] at h h'
      rcases List.mem_cons.1 h with h | h
      · cases h
      · rcases List.mem_cons.1 h' with h' | h'
        · cases h'
        · exact i.uniq n a f a' f' h h'
    · intro q hq
      obtain ⟨h1, h2⟩ := hsub q hq
      have h3 : ¬ r.nonce = q.nonce := fun e => h2 e.symm
      rw [hlog, endings_cons, paid_cons]
      obtain ⟨h4, h5⟩ := i.clean q h1
      simp [isEnd, payment, h3, h4, h5]
    · intro n hn
      rw [hlast] at hn
      have h3 : ¬ r.nonce = n := by have := i.le r hr; omega
      rw [hlog, endings_cons, paid_cons]
      obtain ⟨h4, h5⟩ := i.fresh n hn
      simp [isEnd, payment, h3, h4, h5]
    · intro n
      rw [hlog, endings_cons]
      by_cases e : r.nonce = n
      · have := (i.clean r hr).1
        rw [e] at this
        rw [this]
        split <;> omega
      · have := i.once n
        simp [isEnd, e, this]
    · intro n a f h
      rw [hlog] at h ⊢
      rcases List.mem_cons.1 h with h | h
      · cases h
      · rw [paid_cons]
        by_cases e : r.nonce = n
        · subst e
          obtain ⟨_, e2⟩ := i.uniq _ _ _ _ _ h (i.asked r hr)
          rw [(i.clean r hr).2, e2]
          simp [payment]
        · have := i.bound n a f h
          simp [payment, e, this]
    · intro n a f h
      rw [hlog] at h ⊢
      rcases List.mem_cons.1 h with h | h
      · cases h; exact List.mem_cons_of_mem _ (i.asked r hr)
      · exact List.mem_cons_of_mem _ (i.refunds n a f h)
    · rw [hreqs, hh]; omega
  · rw [if_neg hpair] at hlog hh
    constructor
    · exact hnd
    · intro q hq; rw [hlast]; exact i.le q (hsub q hq).1
    · intro q hq; exact i.votes q (hsub q hq).1
    · intro q hq; rw [hlog]; exact i.asked q (hsub q hq).1
    · rw [hlog, hlast]; exact i.askedLe
    · rw [hlog]; exact i.uniq
    · intro q hq; rw [hlog]; exact i.clean q (hsub q hq).1
    · rw [hlog, hlast]; exact i.fresh
    · rw [hlog]; exact i.once
    · rw [hlog]; exact i.bound
    · rw [hlog]; exact i.refunds
    · rw [hreqs, hh]; omega

theorem endings_rewards {es : List Event} {m each : Nat} {vs : List Nat} (h : ∀ e ∈ es, ∃ v ∈ vs, e = .rewarded m v each) (n : Nat) :
    endings n es = 0 ∧ paid n es = if m = n then es.length * each else 0 := by
  induction es with
  | nil => exact ⟨rfl, by simp [paid]⟩
  | cons e es ih =>
    obtain ⟨i1, i2⟩ := ih (fun x hx => h x (List.mem_cons_of_mem _ hx))
    obtain ⟨v, _, rfl⟩ := h e List.mem_cons_self
    rw [endings_cons, paid_cons, i1, i2]
    refine ⟨rfl, ?_⟩
    simp only [payment, List.length_cons, Nat.add_mul, Nat.one_mul]
    split <;> omega

theorem endings_cancels (n : Nat) (l : List Req) :
    endings n (l.map (fun q => Event.cancelled q.nonce)) = (l.map (·.nonce)).count n ∧
    paid n (l.map (fun q => Event.cancelled q.nonce)) = 0 := by
  induction l with
  | nil => exact ⟨rfl, rfl⟩
  | cons q l ih =>
    rw [List.map_cons, endings_cons, paid_cons, ih.1, ih.2, List.map_cons, List.count_cons]
    exact ⟨rfl, rfl⟩

theorem mem_execute_log {es : List Event} {e a : Event} {m each : Nat} {vs : List Nat} {l : List Req} {log : List Event}
    (h : ∀ e ∈ es, ∃ v ∈ vs, e = .rewarded m v each)
    (he : e ∈ es ++ a :: (l.map (fun q => Event.cancelled q.nonce) ++ log)) :
    (∃ v, e = .rewarded m v each) ∨ e = a ∨ (∃ q ∈ l, e = .cancelled q.nonce) ∨ e ∈ log := by
  rcases List.mem_append.1 he with he | he
  · obtain ⟨v, _, e1⟩ := h e he; exact .inl ⟨v, e1⟩
  · rcases List.mem_cons.1 he with he | he
    · exact .inr (.inl he)
    · rcases List.mem_append.1 he with he | he
      · obtain ⟨q, hq, e1⟩ := List.mem_map.1 he
        exact .inr (.inr (.inl ⟨q, hq, e1.symm⟩))
      · exact .inr (.inr (.inr he))

theorem inv_answer {env : Env} {s : State} (i : Inv s) {r : Req} {c : Claim} (hr : r ∈ s.reqs) :
    Inv (execute env s r c) := by
  obtain ⟨hreqs, hlast, _, es, hlog, hes, hlen, hheld, _⟩ := execute_eq env s r c
  have hp := remove_perm i.nodup hr
  have hsum := (hp.map (·.fee)).sum_nat
  rw [List.map_cons, List.sum_cons] at hsum
  have hsum2 := sum_filter_le (fun q => !older r q) (s.reqs.filter (fun q => !(q.nonce == r.nonce && q.contract == r.contract)))
  rw [List.filter_filter] at hsum2
  have hih := i.held
  have hpay : es.length * (r.fee / r.votes.length) ≤ r.fee :=
    Nat.le_trans (Nat.mul_le_mul_right _ hlen) (Nat.mul_div_le r.fee r.votes.length)
  have hsub : ∀ q ∈ (execute env s r c).reqs, q ∈ s.reqs ∧ q.nonce ≠ r.nonce ∧ older r q = false := by
    intro q hq
    rw [hreqs] at hq
    obtain ⟨hq', hb⟩ := List.mem_filter.1 hq
    rw [Bool.and_eq_true, Bool.not_eq_true', Bool.not_eq_true'] at hb
    refine ⟨hq', fun e => ?_, hb.1⟩
    have := eq_of_nonce i.nodup hq' hr e
    subst this
    simp at hb
  have hask : ∀ n a f, Event.asked n a f ∈ (execute env s r c).log ↔ Event.asked n a f ∈ s.log := by
    intro n a f
    rw [hlog]
    constructor
    · intro h
      rcases mem_execute_log hes h with ⟨_, h⟩ | h | ⟨_, _, h⟩ | h
      · cases h
      · cases h
      · cases h
      · exact h
    · intro h
      exact List.mem_append_right _ (List.mem_cons_of_mem _ (List.mem_append_right _ h))
  have hcount : ∀ n, ((s.reqs.filter (older r)).map (·.nonce)).count n ≤ 1 := by
    intro n
    exact List.nodup_iff_count.1 (List.Nodup.sublist (List.filter_sublist.map _) i.nodup) n
  have hcount0 : ∀ n, (∀ q ∈ s.reqs, older r q = true → q.nonce ≠ n) →
      ((s.reqs.filter (older r)).map (·.nonce)).count n = 0 := by
    intro n h
    rw [List.count_eq_zero]
    intro hm
    obtain ⟨q, hq, e⟩ := List.mem_map.1 hm
    obtain ⟨h1, h2⟩ := List.mem_filter.1 hq
    exact h q h1 h2 e
  have hend : ∀ n, endings n (execute env s r c).log =
      endings n s.log + ((s.reqs.filter (older r)).map (·.nonce)).count n + if r.nonce = n then 1 else 0 := by
    intro n
    rw [hlog, endings_append, endings_cons, endings_append, (endings_rewards hes n).1, (endings_cancels n _).1]
    simp only [isEnd, beq_iff_eq]
    omega
  have hpaid : ∀ n, paid n (execute env s r c).log =
      paid n s.log + if r.nonce = n then es.length * (r.fee / r.votes.length) else 0 := by
    intro n
    rw [hlog, paid_append, paid_cons, paid_append, (endings_rewards hes n).2, (endings_cancels n _).2]
    simp only [payment]
    omega
  have hrr : older r r = false := by simp [older]
  constructor
  · rw [hreqs]; exact List.Nodup.sublist (List.filter_sublist.map _) i.nodup
  · intro q hq; rw [hlast]; exact i.le q (hsub q hq).1
  · intro q hq; exact i.votes q (hsub q hq).1
  · intro q hq; rw [hask]; exact i.asked q (hsub q hq).1
  · intro n a f h; rw [hask] at h; rw [hlast]; exact i.askedLe n a f h
  · intro n a f a' f' h h'; rw [hask] at h h'; exact i.uniq n a f a' f' h h'
  · intro q hq
    obtain ⟨h1, h2, h3⟩ := hsub q hq
    obtain ⟨h4, h5⟩ := i.clean q h1
    rw [hend, hpaid, h4, h5, hcount0 q.nonce (by
      intro q' hq' ho e
      have := eq_of_nonce i.nodup hq' h1 e
      subst this
      rw [h3] at ho; cases ho), if_neg (fun e => h2 e.symm), if_neg (fun e => h2 e.symm)]
    exact ⟨rfl, rfl⟩
  · intro n hn
    rw [hlast] at hn
    obtain ⟨h4, h5⟩ := i.fresh n hn
    have h6 : ¬ r.nonce = n := by have := i.le r hr; omega
    rw [hend, hpaid, h4, h5, hcount0 n (by
      intro q' hq' _ e
      have := i.le q' hq'
      omega), if_neg h6, if_neg h6]
    exact ⟨rfl, rfl⟩
  · intro n
    rw [hend]
    by_cases e : r.nonce = n
    · rw [if_pos e, ← e, (i.clean r hr).1, hcount0 r.nonce (by
        intro q' hq' ho e
        have := eq_of_nonce i.nodup hq' hr e
        subst this
        rw [hrr] at ho; cases ho)]
      omega
    · rw [if_neg e]
      by_cases hz : ((s.reqs.filter (older r)).map (·.nonce)).count n = 0
      · rw [hz]; exact i.once n
      · have hm : n ∈ (s.reqs.filter (older r)).map (·.nonce) := by
          apply Decidable.byContradiction
          intro h
          exact hz (List.count_eq_zero.2 h)
        obtain ⟨q, hq, e1⟩ := List.mem_map.1 hm
        have := (i.clean q (List.mem_filter.1 hq).1).1
        rw [e1] at this
        have := hcount n
        omega
  · intro n a f h
    rw [hask] at h
    rw [hpaid]
    by_cases e : r.nonce = n
    · subst e
      obtain ⟨_, e2⟩ := i.uniq _ _ _ _ _ h (i.asked r hr)
      rw [(i.clean r hr).2, if_pos rfl, e2]
      omega
    · rw [if_neg e]; exact i.bound n a f h
  · intro n a f h
    rw [hask]
    rw [hlog] at h
    rcases mem_execute_log hes h with ⟨_, h⟩ | h | ⟨_, _, h⟩ | h
    · cases h
    · cases h
    · cases h
    · exact i.refunds n a f h
  · rw [hreqs]
    omega

theorem inv_micro {env : Env} {s t : State} (i : Inv s) (h : Micro env s t) : Inv t := by
  cases h with
  | timeout r hr _ => exact inv_timeout i hr
  | answer r c hr _ _ => exact inv_answer i hr

theorem inv_steps {env : Env} {s t : State} (i : Inv s) (h : Steps env s t) : Inv t := by
  induction h with
  | refl => exact i
  | cons h _ ih => exact ih (inv_micro i h)

theorem endBlock_steps {env : Env} {s : State} (i : Inv s) : Steps env { s with height := s.height + 1 } (endBlock env s) := by
  apply loop_steps _ ({ s with height := s.height + 1 }, 0) (sortBy_nonce _ i.nodup)
  intro r hr
  exact (sortBy_perm _ _).mem_iff.1 hr

theorem inv_height {s : State} (i : Inv s) (h : Nat) : Inv { s with height := h } :=
  ⟨i.nodup, i.le, i.votes, i.asked, i.askedLe, i.uniq, i.clean, i.fresh, i.once, i.bound, i.refunds, i.held⟩

theorem addClaim_eq (n k : Nat) (c : Claim) (r : Req) : (addClaim n k c r).nonce = r.nonce ∧ (addClaim n k c r).fee = r.fee ∧
    (addClaim n k c r).sender = r.sender ∧ (addClaim n k c r).contract = r.contract ∧
    (addClaim n k c r).timeout = r.timeout := by
  unfold addClaim; split <;> exact ⟨rfl, rfl, rfl, rfl, rfl⟩

theorem addClaim_votes (n k : Nat) (c : Claim) {r : Req} (h : r.votes.Nodup) : (addClaim n k c r).votes.Nodup := by
  unfold addClaim
  split
  · rename_i hc
    unfold Req.votes at *
    dsimp only
    rw [List.map_append, List.map_cons, List.map_nil]
    rw [List.nodup_append]
    refine ⟨h, by simp, ?_⟩
    intro a ha b hb
    rw [List.mem_singleton] at hb
    subst hb
    intro e
    exact hc.2.2 (e ▸ ha)
  · exact h

theorem inv_step {s : State} (i : Inv s) (op : Op) : Inv (step s op) := by
  cases op with
  | ask sender contract fee =>
    have hlast : (step s (.ask sender contract fee)).last = s.last + 1 := rfl
    have hlog : (step s (.ask sender contract fee)).log = .asked (s.last + 1) sender fee :: s.log := rfl
    have hreqs : (step s (.ask sender contract fee)).reqs = ⟨s.last + 1, contract, sender, fee, s.height + 1 + 99, []⟩ :: s.reqs := rfl
    have hh : (step s (.ask sender contract fee)).held = s.held + fee := rfl
    have he : ∀ n, endings n (step s (.ask sender contract fee)).log = endings n s.log ∧
        paid n (step s (.ask sender contract fee)).log = paid n s.log := by
      intro n
      rw [hlog, endings_cons, paid_cons]
      simp [isEnd, payment]
    generalize step s (.ask sender contract fee) = t at *
    constructor
    · rw [hreqs, List.map_cons, List.nodup_cons]
      refine ⟨?_, i.nodup⟩
      intro hm
      obtain ⟨q, hq, e⟩ := List.mem_map.1 hm
      have := i.le q hq
      dsimp only at e
      omega
    · intro q hq
      rw [hreqs] at hq
      rw [hlast]
      rcases List.mem_cons.1 hq with rfl | hq
      · exact Nat.le_refl _
      · exact Nat.le_succ_of_le (i.le q hq)
    · intro q hq
      rw [hreqs] at hq
      rcases List.mem_cons.1 hq with rfl | hq
      · exact List.nodup_nil
      · exact i.votes q hq
    · intro q hq
      rw [hreqs] at hq
      rw [hlog]
      rcases List.mem_cons.1 hq with rfl | hq
      · exact List.mem_cons_self
      · exact List.mem_cons_of_mem _ (i.asked q hq)
    · intro n a f h
      rw [hlog] at h
      rw [hlast]
      rcases List.mem_cons.1 h with h | h
      · cases h; exact Nat.le_refl _
      · exact Nat.le_succ_of_le (i.askedLe n a f h)
    · intro n a f a' f' h h'
      rw [hlog] at h h'
      rcases List.mem_cons.1 h with h | h <;> rcases List.mem_cons.1 h' with h' | h'
      · cases h; cases h'; exact ⟨rfl, rfl⟩
      · cases h; have := i.askedLe _ _ _ h'; omega
      · cases h'; have := i.askedLe _ _ _ h; omega
      · exact i.uniq n a f a' f' h h'
    · intro q hq
      rw [hreqs] at hq
      rw [(he _).1, (he _).2]
      rcases List.mem_cons.1 hq with rfl | hq
      · exact i.fresh _ (Nat.lt_succ_self _)
      · exact i.clean q hq
    · intro n hn
      rw [(he _).1, (he _).2]
      exact i.fresh n (by omega)
    · intro n; rw [(he n).1]; exact i.once n
    · intro n a f h
      rw [hlog] at h
      rw [(he n).2]
      rcases List.mem_cons.1 h with h | h
      · cases h
        rw [(i.fresh _ (Nat.lt_succ_self _)).2]
        exact Nat.zero_le _
      · exact i.bound n a f h
    · intro n a f h
      rw [hlog] at h ⊢
      rcases List.mem_cons.1 h with h | h
      · cases h
      · exact List.mem_cons_of_mem _ (i.refunds n a f h)
    · rw [hreqs, hh, List.map_cons, List.sum_cons]
      have := i.held
      dsimp only
      omega
  | skip =>
    exact ⟨i.nodup, fun r hr => Nat.le_succ_of_le (i.le r hr), i.votes, i.asked,
      fun n a f h => Nat.le_succ_of_le (i.askedLe n a f h), i.uniq, i.clean,
      fun n hn => i.fresh n (Nat.lt_of_succ_lt hn), i.once, i.bound, i.refunds, i.held⟩
  | claim n k c =>
    have hm : ∀ q ∈ (step s (.claim n k c)).reqs, ∃ r ∈ s.reqs, addClaim n k c r = q := by
      intro q hq
      exact List.mem_map.1 hq
    have hn : (step s (.claim n k c)).reqs.map (·.nonce) = s.reqs.map (·.nonce) := by
      show (s.reqs.map (addClaim n k c)).map (·.nonce) = _
      rw [List.map_map]
      exact List.map_congr_left (fun r _ => (addClaim_eq n k c r).1)
    have hf : (step s (.claim n k c)).reqs.map (·.fee) = s.reqs.map (·.fee) := by
      show (s.reqs.map (addClaim n k c)).map (·.fee) = _
      rw [List.map_map]
      exact List.map_congr_left (fun r _ => (addClaim_eq n k c r).2.1)
    constructor
    · rw [hn]; exact i.nodup
    · intro q hq
      obtain ⟨r, hr, rfl⟩ := hm q hq
      rw [(addClaim_eq n k c r).1]
      exact i.le r hr
    · intro q hq
      obtain ⟨r, hr, rfl⟩ := hm q hq
      exact addClaim_votes n k c (i.votes r hr)
    · intro q hq
      obtain ⟨r, hr, rfl⟩ := hm q hq
      obtain ⟨h1, h2, h3, _⟩ := addClaim_eq n k c r
      rw [h1, h2, h3]
      exact i.asked r hr
    · exact i.askedLe
    · exact i.uniq
    · intro q hq
      obtain ⟨r, hr, rfl⟩ := hm q hq
      rw [(addClaim_eq n k c r).1]
      exact i.clean r hr
    · exact i.fresh
    · exact i.once
    · exact i.bound
    · exact i.refunds
    · rw [hf]; exact i.held
  | endBlock env => exact inv_steps (inv_height i _) (endBlock_steps i)

theorem inv_run (ops : List Op) : Inv (run ops) := by
  induction ops with
  | nil => exact inv_init
  | cons op ops ih => exact inv_step ih op

end Hyperion.External
