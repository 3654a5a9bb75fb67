import Verif.Chronos.CronProps

/-!
# C76: the queue of scheduled calls

When a callback arrives, the call it belongs to is put in a queue ordered by gas price.  The queue
should hold exactly the calls that wait: each once, under its price, and no cancelled ones.
-/

namespace Chronos
open Addr

/-- The queue holds exactly the waiting calls: (1) every entry is a live call, listed under its
price with the time at which it was queued, and no list has a call twice; (2) every call is either
not waiting or in the list of its price. -/
structure Exact (s : State) : Prop where
  entries : ∀ p ids, KV.get s.queue p = some ids → ids ≠ [] ∧ (ids.map Prod.fst).Nodup ∧
    ∀ e ∈ ids, ∃ c, KV.get s.crons e.1 = some c ∧ c.maxGasPrice.natAbs = p ∧ c.queueTs = e.2 ∧ 0 < e.2
  calls : ∀ k c, KV.get s.crons k = some c → c.queueTs = 0 ∨
    (0 < c.queueTs ∧ ∃ ids, KV.get s.queue c.maxGasPrice.natAbs = some ids ∧ ∃ t, (k, t) ∈ ids)

/-- No update changes the price of a call that waits in the queue. -/
def Calm (s : State) : Op → Prop
  | .update r => ∀ c, KV.get s.crons r.id = some c → 0 < c.queueTs →
    r.maxGasPrice.natAbs = c.maxGasPrice.natAbs
  | _ => True

/-- States after `n` operations, all calm. -/
inductive CalmReach (wallet : Nat → List Nat) : Nat → State → Prop
  | init (bal : List Nat → Nat) (accounts code : List Nat → Bool) (height time : Nat) (ht : 0 < time) :
    CalmReach wallet 0 (State.init bal accounts code height time)
  | step {n : Nat} {s : State} (op : Op) : CalmReach wallet n s → Fair wallet s op → Calm s op →
    CalmReach wallet (n + 1) (step wallet s op)

theorem CalmReach.reach {wallet : Nat → List Nat} {n : Nat} {s : State} (h : CalmReach wallet n s) :
    Reach wallet n s := by
  induction h with
  | init bal accounts code height time ht => exact Reach.init _ _ _ _ _ ht
  | step op _ hf _ ih => exact Reach.step op ih hf

theorem dropId_eq (id : Nat) : ∀ (ids : List (Nat × Nat)), (ids.map Prod.fst).Nodup →
    dropId id ids = if id ∈ ids.map Prod.fst then some (ids.filter fun e => e.1 ≠ id) else none
  | [], _ => rfl
  | e :: es, h => by
    rw [List.map_cons, List.nodup_cons] at h
    unfold dropId
    by_cases he : e.1 = id
    · rw [if_pos he, if_pos (by rw [List.map_cons, he]; exact List.mem_cons_self)]
      rw [List.filter_cons, if_neg (by simp [he]), List.filter_eq_self.mpr]
      intro x hx
      have : x.1 ≠ id := fun e' => h.1 (by rw [he, ← e']; exact List.mem_map_of_mem hx)
      simpa using this
    · rw [if_neg he, dropId_eq id es h.2]
      by_cases hm : id ∈ es.map Prod.fst
      · rw [if_pos hm, List.map_cons, if_pos (List.mem_cons_of_mem _ hm)]
        dsimp only
        rw [List.filter_cons, if_pos (by simpa using he)]
      · rw [if_neg hm, if_neg]
        rw [List.map_cons, List.mem_cons]
        exact fun hc => hc.elim (fun h => he h.symm) hm

theorem no_entry {s : State} (hx : Exact s) {k : Nat} {c : Cron} (hc : KV.get s.crons k = some c)
    {p : Nat} {ids : List (Nat × Nat)} (hp : KV.get s.queue p = some ids)
    (h : p ≠ c.maxGasPrice.natAbs ∨ c.queueTs = 0) : k ∉ ids.map Prod.fst := by
  intro hm
  obtain ⟨e, he, rfl⟩ := List.mem_map.mp hm
  obtain ⟨c', h1, h2, h3, h4⟩ := (hx.entries p ids hp).2.2 e he
  rw [hc] at h1
  injection h1 with h1
  subst h1
  rcases h with h | h
  · exact h h2.symm
  · omega

/-- A list without one identifier; empty lists are dropped. -/
def without (k : Nat) (o : Option (List (Nat × Nat))) : Option (List (Nat × Nat)) :=
  match o with
  | none => none
  | some ids => if (ids.filter fun e => e.1 ≠ k) = [] then none else some (ids.filter fun e => e.1 ≠ k)

theorem without_absent {s : State} (hx : Exact s) {k : Nat} {c : Cron} (hc : KV.get s.crons k = some c)
    {p : Nat} (h : p ≠ c.maxGasPrice.natAbs ∨ c.queueTs = 0 ∨ (∀ ids, KV.get s.queue p = some ids → k ∉ ids.map Prod.fst)) :
    without k (KV.get s.queue p) = KV.get s.queue p := by
  cases hp : KV.get s.queue p with
  | none => rfl
  | some ids =>
    have hk : k ∉ ids.map Prod.fst := by
      rcases h with h | h | h
      · exact no_entry hx hc hp (Or.inl h)
      · exact no_entry hx hc hp (Or.inr h)
      · exact h ids hp
    have : (ids.filter fun e => e.1 ≠ k) = ids := by
      rw [List.filter_eq_self]
      intro x hxm
      have : x.1 ≠ k := fun e' => hk (by rw [← e']; exact List.mem_map_of_mem hxm)
      simpa using this
    unfold without
    dsimp only
    rw [this, if_neg (hx.entries p ids hp).1]

/-- Removing a call takes its entry away and nothing else. -/
theorem retire_queue {s : State} (hx : Exact s) {k : Nat} {c : Cron} (hc : KV.get s.crons k = some c)
    (hid : c.id = k) (p : Nat) :
    KV.get (retire s c).queue p = without k (KV.get s.queue p) := by
  unfold retire
  split
  · show KV.get (removeQueue s c).queue p = _
    unfold removeQueue priceKey
    split
    · rename_i hn
      symm
      apply without_absent hx hc
      by_cases e : p = c.maxGasPrice.natAbs
      · right; right
        intro ids hp
        rw [e, hn] at hp; cases hp
      · exact Or.inl e
    · rename_i ids hids
      have hd := dropId_eq c.id ids (hx.entries _ _ hids).2.1
      rw [hid] at hd
      split
      · rename_i hn
        rw [hid, hd] at hn
        symm
        apply without_absent hx hc
        by_cases e : p = c.maxGasPrice.natAbs
        · right; right
          intro ids' hp
          rw [e, hids] at hp
          injection hp with hp
          subst hp
          split at hn
          · cases hn
          · assumption
        · exact Or.inl e
      · rename_i hn
        rw [hid, hd] at hn
        show KV.get (KV.del s.queue _) p = _
        rw [KV.get_del]
        split
        · rename_i e
          rw [e, hids]
          unfold without
          dsimp only
          split at hn
          · injection hn with hn
            rw [if_pos hn]
          · cases hn
        · rename_i e
          exact (without_absent hx hc (Or.inl e)).symm
      · rename_i ids' hne hn
        rw [hid, hd] at hn
        show KV.get (KV.set s.queue _ ids') p = _
        rw [KV.get_set]
        split
        · rename_i e
          rw [e, hids]
          unfold without
          dsimp only
          split at hn
          · injection hn with hn
            rw [hn, if_neg (fun h => hne h)]
          · cases hn
        · rename_i e
          exact (without_absent hx hc (Or.inl e)).symm
  · rename_i hq
    show KV.get s.queue p = _
    refine (without_absent hx hc (Or.inr (Or.inl ?_))).symm
    rcases hx.calls k c hc with h | ⟨h, _⟩
    · exact h
    · exfalso
      apply hq
      unfold inQueue
      split
      · exact decide_eq_true (by omega)
      · exact decide_eq_true (by omega)

theorem retire_exact {s : State} (hx : Exact s) {k : Nat} {c : Cron} (hc : KV.get s.crons k = some c)
    (hid : c.id = k) : Exact (retire s c) := by
  have hq := retire_queue hx hc hid
  have hcr := (retire_frame s c).2.2.2.2.2.2.2.2.2
  constructor
  · intro p ids hp
    rw [hq] at hp
    cases ho : KV.get s.queue p with
    | none => rw [ho] at hp; cases hp
    | some ids0 =>
      rw [ho] at hp
      unfold without at hp
      dsimp only at hp
      split at hp
      · cases hp
      · rename_i hne
        injection hp with hp
        obtain ⟨h1, h2, h3⟩ := hx.entries p ids0 ho
        refine ⟨by rw [← hp]; exact hne, ?_, ?_⟩
        · rw [← hp]
          exact List.Nodup.sublist (List.Sublist.map _ List.filter_sublist) h2
        · intro e he
          rw [← hp, List.mem_filter] at he
          obtain ⟨c', h4, h5⟩ := h3 e he.1
          refine ⟨c', ?_, h5⟩
          rw [hcr, hid, KV.get_del, if_neg (by simpa using he.2), h4]
  · intro j c' hj
    rw [hcr, hid, KV.get_del] at hj
    split at hj
    · cases hj
    · rename_i hne
      rcases hx.calls j c' hj with h | ⟨h, ids, hids, t, ht⟩
      · exact Or.inl h
      · refine Or.inr ⟨h, ids.filter fun e => e.1 ≠ k, ?_, t, ?_⟩
        · rw [hq, hids]
          unfold without
          dsimp only
          rw [if_neg]
          intro hemp
          have : (j, t) ∈ ids.filter fun e => e.1 ≠ k := List.mem_filter.mpr ⟨ht, by simpa using hne⟩
          rw [hemp] at this
          cases this
        · exact List.mem_filter.mpr ⟨ht, by simpa using hne⟩

theorem bal_exact {s : State} (hx : Exact s) (bal : List Nat → Nat) : Exact { s with bal := bal } :=
  ⟨hx.entries, hx.calls⟩

theorem append_exact {s : State} (hx : Exact s) (ht : 0 < s.time) {k : Nat} {c : Cron}
    (hc : KV.get s.crons k = some c) (hid : c.id = k) (hz : c.queueTs = 0) (d : List (Nat × Nat)) :
    Exact (appendQueue { s with data := d } c) := by
  have hcr : ∀ j, KV.get (appendQueue { s with data := d } c).crons j =
      if j = k then some { c with queueTs := (s.time : Int) } else KV.get s.crons j := fun j => by
    show KV.get (KV.set s.crons c.id _) j = _
    rw [KV.get_set, hid]
  have hq : ∀ p, KV.get (appendQueue { s with data := d } c).queue p =
      if p = c.maxGasPrice.natAbs then some ((KV.get s.queue c.maxGasPrice.natAbs).getD [] ++ [(k, s.time)])
      else KV.get s.queue p := fun p => by
    show KV.get (KV.set s.queue (priceKey c) _) p = _
    rw [KV.get_set, hid]
    rfl
  have old : ∀ p ids, KV.get s.queue p = some ids → ∀ e ∈ ids, ∃ c',
      KV.get (appendQueue { s with data := d } c).crons e.1 = some c' ∧ c'.maxGasPrice.natAbs = p ∧
      c'.queueTs = e.2 ∧ 0 < e.2 := by
    intro p ids hp e he
    obtain ⟨c', h4, h5⟩ := (hx.entries p ids hp).2.2 e he
    refine ⟨c', ?_, h5⟩
    rw [hcr, if_neg, h4]
    intro e'
    exact no_entry hx hc hp (Or.inr hz) (by rw [← e']; exact List.mem_map_of_mem he)
  constructor
  · intro p ids hp
    rw [hq] at hp
    split at hp
    · rename_i e
      injection hp with hp
      subst hp
      refine ⟨by simp, ?_, ?_⟩
      · cases ho : KV.get s.queue c.maxGasPrice.natAbs with
        | none => simp
        | some ids0 =>
          rw [Option.getD_some, List.map_append, List.nodup_append]
          refine ⟨(hx.entries _ _ ho).2.1, by simp, ?_⟩
          intro a ha b hb hab
          have hb : b = k := by simpa using hb
          exact no_entry hx hc ho (Or.inr hz) (by rw [← hb, ← hab]; exact ha)
      · intro x hxm
        rcases List.mem_append.mp hxm with hxm | hxm
        · cases ho : KV.get s.queue c.maxGasPrice.natAbs with
          | none => rw [ho] at hxm; cases hxm
          | some ids0 =>
            rw [ho, Option.getD_some] at hxm
            rw [e]
            exact old _ _ ho x hxm
        · have hxm : x = (k, s.time) := by simpa using hxm
          subst hxm
          exact ⟨{ c with queueTs := (s.time : Int) }, by rw [hcr, if_pos rfl], e.symm, rfl, ht⟩
    · obtain ⟨h1, h2, _⟩ := hx.entries p ids hp
      exact ⟨h1, h2, old p ids hp⟩
  · intro j c' hj
    rw [hcr] at hj
    split at hj
    · rename_i e
      injection hj with hj
      subst hj
      subst e
      right
      refine ⟨by show (0 : Int) < (s.time : Int); omega, _, by
        show KV.get _ c.maxGasPrice.natAbs = _
        rw [hq, if_pos rfl], s.time, ?_⟩
      exact List.mem_append_right _ List.mem_cons_self
    · rcases hx.calls j c' hj with h | ⟨h, ids, hids, t, ht'⟩
      · exact Or.inl h
      · right
        refine ⟨h, ?_⟩
        rw [hq]
        split
        · rename_i e
          rw [e] at hids
          rw [hids]
          exact ⟨_, rfl, t, List.mem_append_left _ ht'⟩
        · exact ⟨ids, hids, t, ht'⟩

theorem step_exact {wallet : Nat → List Nat} {s : State} (op : Op) (hi : Inv wallet s) (hx : Exact s)
    (hcalm : Calm s op) : Exact (step wallet s op) := by
  cases op with
  | create r =>
    show Exact ((create wallet s r).getD s)
    cases h : create wallet s r with
    | none => exact hx
    | some s' =>
      obtain ⟨_, _, hn, _, b, bal, _, _, _, rfl⟩ := create_facts h
      constructor
      · intro p ids hp
        obtain ⟨h1, h2, h3⟩ := hx.entries p ids hp
        refine ⟨h1, h2, fun e he => ?_⟩
        obtain ⟨c', h4, h5⟩ := h3 e he
        refine ⟨c', ?_, h5⟩
        show KV.get (KV.set s.crons s.id _) e.1 = _
        rw [KV.get_set, if_neg, h4]
        intro e'
        rw [e', hn] at h4
        cases h4
      · intro j c' hj
        have hj : KV.get (KV.set s.crons s.id (r.cron s.id s.height (accString (wallet s.id)))) j = some c' := hj
        rw [KV.get_set] at hj
        split at hj
        · injection hj with hj
          subst hj
          exact Or.inl rfl
        · exact hx.calls j c' hj
  | callback id data =>
    show Exact (callback s id data)
    have hd : ∀ d, Exact { s with data := d } := fun _ => ⟨hx.entries, hx.calls⟩
    unfold callback
    dsimp only
    split
    · exact hd _
    · rename_i c hc
      split
      · exact hd _
      · rename_i hq
        refine append_exact hx hi.time hc (hi.live id c hc).id ?_ _
        rcases hx.calls id c hc with h | ⟨h, _⟩
        · exact h
        · exfalso
          apply hq
          unfold inQueue
          split
          · exact decide_eq_true (by omega)
          · exact decide_eq_true (by omega)
  | update r =>
    show Exact ((update s r).getD s)
    unfold update
    split
    · exact hx
    · rename_i c hc
      split
      · exact hx
      · have hid := (hi.live r.id c hc).id
        have hcr : ∀ j, KV.get (KV.set s.crons c.id { c with
            frequency := r.frequency, expiration := r.expiration, gasLimit := r.gasLimit,
            maxGasPrice := r.maxGasPrice }) j = if j = r.id then some { c with
            frequency := r.frequency, expiration := r.expiration, gasLimit := r.gasLimit,
            maxGasPrice := r.maxGasPrice } else KV.get s.crons j := fun j => by
          rw [KV.get_set, hid]
        constructor
        · intro p ids hp
          obtain ⟨h1, h2, h3⟩ := hx.entries p ids hp
          refine ⟨h1, h2, fun e he => ?_⟩
          obtain ⟨c', h4, h5, h6, h7⟩ := h3 e he
          show ∃ x, KV.get (KV.set s.crons c.id _) e.1 = some x ∧ _
          rw [hcr]
          split
          · rename_i e'
            rw [e', hc] at h4
            injection h4 with h4
            subst h4
            refine ⟨_, rfl, ?_, h6, h7⟩
            exact (hcalm c hc (by omega)).trans h5
          · exact ⟨c', h4, h5, h6, h7⟩
        · intro j c' hj
          have hj : KV.get (KV.set s.crons c.id { c with
            frequency := r.frequency, expiration := r.expiration, gasLimit := r.gasLimit,
            maxGasPrice := r.maxGasPrice }) j = some c' := hj
          rw [hcr] at hj
          split at hj
          · rename_i e'
            injection hj with hj
            subst hj
            subst e'
            rcases hx.calls r.id c hc with h | ⟨h, ids, hids, t⟩
            · exact Or.inl h
            · refine Or.inr ⟨h, ids, ?_, t⟩
              show KV.get s.queue r.maxGasPrice.natAbs = _
              rw [hcalm c hc h, hids]
          · exact hx.calls j c' hj
  | cancel a b c =>
    show Exact ((cancel s a b c).getD s)
    cases h : cancel s a b c with
    | none => exact hx
    | some s' =>
      obtain ⟨c0, o, hc0, _, _, hr⟩ := cancel_facts h
      obtain ⟨c', hc', _, hcase⟩ := removeCron_facts hr
      have hid := (hi.live c c' hc').id
      rcases hcase with ⟨_, bal, _, rfl⟩ | ⟨_, rfl⟩
      · exact retire_exact (bal_exact hx bal) hc' hid
      · exact retire_exact hx hc' hid
  | world bal accounts code height time => exact ⟨hx.entries, hx.calls⟩

/-! ## The property -/

/-- **C76, the part that holds.**  After any history in which no update changes the price of a
waiting call, the queue holds exactly the waiting calls.

Missing: without that condition it fails, see `queue_stale`. -/
theorem queue_exact_partial {wallet : Nat → List Nat} (hw : Wallets wallet) {n : Nat} {s : State}
    (h : CalmReach wallet n s) (hn : n < 2 ^ 64 - 2) : Exact s := by
  induction h with
  | init => exact ⟨(fun _ _ h => by cases h), (fun _ _ h => by cases h)⟩
  | step op hr _ hcalm ih => exact step_exact op (reach_inv hw hr.reach (by omega)) (ih (by omega)) hcalm

/-- **C76, the part that holds.**  From block 34801 on, a call whose callback arrives is in the queue
afterwards. -/
theorem answered_queued_partial {wallet : Nat → List Nat} (hw : Wallets wallet) {n : Nat} {s : State}
    (h : CalmReach wallet n s) (hn : n < 2 ^ 64 - 3) (hh : 34800 < s.height) {k : Nat} {c : Cron}
    (hc : KV.get s.crons k = some c) (data : Nat) :
    ∃ ids t, KV.get (callback s k data).queue c.maxGasPrice.natAbs = some ids ∧ (k, t) ∈ ids := by
  have hi := reach_inv hw h.reach (by omega)
  have hx := queue_exact_partial hw h (by omega)
  have hx' : Exact (step wallet s (.callback k data)) := step_exact (wallet := wallet) (.callback k data) hi hx trivial
  have hx' : Exact (callback s k data) := hx'
  have : ∃ c', KV.get (callback s k data).crons k = some c' ∧ c'.maxGasPrice = c.maxGasPrice ∧ c'.queueTs ≠ 0 := by
    unfold callback
    dsimp only
    rw [hc]
    dsimp only
    split
    · rename_i hq
      unfold inQueue at hq
      rw [if_pos (show update0 < s.height from hh), decide_eq_true_eq] at hq
      exact ⟨c, hc, rfl, hq.2⟩
    · refine ⟨{ c with queueTs := (s.time : Int) }, ?_, rfl, ?_⟩
      · show KV.get (KV.set s.crons c.id _) k = _
        rw [KV.get_set, if_pos (hi.live k c hc).id.symm]
      · have := hi.time
        show (s.time : Int) ≠ 0
        omega
  obtain ⟨c', h1, h2, h3⟩ := this
  rcases hx'.calls k c' h1 with h | ⟨_, ids, h4, t, h5⟩
  · exact absurd h h3
  · exact ⟨ids, t, by rw [← h2]; exact h4, h5⟩

/-- **C76, where it fails.**  Up to block 34800 a callback never puts anything in the queue. -/
theorem early_never_queued {wallet : Nat → List Nat} (hw : Wallets wallet) {n : Nat} {s : State}
    (h : CalmReach wallet n s) (hn : n < 2 ^ 64 - 2) (hh : s.height ≤ 34800) (k data : Nat) :
    (callback s k data).queue = s.queue := by
  have hx := queue_exact_partial hw h hn
  unfold callback
  dsimp only
  split
  · rfl
  · rename_i c hc
    split
    · rfl
    · rename_i hq
      exfalso
      apply hq
      unfold inQueue
      rw [if_neg (Nat.not_lt.mpr hh : ¬ update0 < s.height)]
      refine decide_eq_true ?_
      rcases hx.calls k c hc with h | ⟨h, _⟩ <;> omega

theorem dropId_mem {id k t : Nat} (hne : k ≠ id) : ∀ {ids ids' : List (Nat × Nat)},
    dropId id ids = some ids' → (k, t) ∈ ids → (k, t) ∈ ids'
  | [], _, h, _ => by cases h
  | e :: es, ids', h, hm => by
    unfold dropId at h
    split at h
    · rename_i he
      injection h with h
      subst h
      rcases List.mem_cons.mp hm with hm | hm
      · rw [← hm] at he
        exact absurd he hne
      · exact hm
    · split at h
      · cases h
      · rename_i es' hes
        injection h with h
        subst h
        rcases List.mem_cons.mp hm with hm | hm
        · rw [hm]; exact List.mem_cons_self
        · exact List.mem_cons_of_mem _ (dropId_mem hne hes hm)

/-- **C76.**  An entry of a cancelled call is never removed from the queue. -/
theorem stale_forever {wallet : Nat → List Nat} (hw : Wallets wallet) {n : Nat} {s : State}
    (hr : Reach wallet n s) (hn : n < 2 ^ 64 - 2) (op : Op) {k t p : Nat} {ids : List (Nat × Nat)}
    (hdead : KV.get s.crons k = none) (hp : KV.get s.queue p = some ids) (hm : (k, t) ∈ ids) :
    ∃ ids', KV.get (step wallet s op).queue p = some ids' ∧ (k, t) ∈ ids' := by
  have hi := reach_inv hw hr hn
  have same : ∀ q, q = s.queue → ∃ ids', KV.get q p = some ids' ∧ (k, t) ∈ ids' := fun q e => by
    rw [e]; exact ⟨ids, hp, hm⟩
  cases op with
  | create r =>
    refine same _ ?_
    show ((create wallet s r).getD s).queue = _
    cases h : create wallet s r with
    | none => rfl
    | some s' =>
      obtain ⟨_, _, _, _, b, bal, _, _, _, rfl⟩ := create_facts h
      rfl
  | callback id data =>
    show ∃ ids', KV.get (callback s id data).queue p = some ids' ∧ _
    unfold callback
    dsimp only
    split
    · exact same _ rfl
    · rename_i c hc
      split
      · exact same _ rfl
      · show ∃ ids', KV.get (KV.set s.queue (priceKey c) _) p = some ids' ∧ _
        rw [KV.get_set]
        split
        · rename_i e
          refine ⟨_, rfl, List.mem_append_left _ ?_⟩
          show (k, t) ∈ (KV.get s.queue (priceKey c)).getD []
          rw [← e, hp]
          exact hm
        · exact ⟨ids, hp, hm⟩
  | update r =>
    refine same _ ?_
    show ((update s r).getD s).queue = _
    unfold update
    split
    · rfl
    · split <;> rfl
  | cancel a b id =>
    show ∃ ids', KV.get ((cancel s a b id).getD s).queue p = some ids' ∧ _
    cases h : cancel s a b id with
    | none => exact ⟨ids, hp, hm⟩
    | some s' =>
      obtain ⟨c0, o, hc0, _, _, hrm⟩ := cancel_facts h
      obtain ⟨c, hc, _, hcase⟩ := removeCron_facts hrm
      have hid := (hi.live id c hc).id
      have hne : k ≠ c.id := fun e => by rw [e, hid, hc] at hdead; cases hdead
      have key : ∀ bal, ∃ ids', KV.get (retire { s with bal := bal } c).queue p = some ids' ∧ (k, t) ∈ ids' := by
        intro bal
        unfold retire
        split
        · show ∃ ids', KV.get (removeQueue { s with bal := bal } c).queue p = some ids' ∧ _
          unfold removeQueue
          split
          · exact ⟨ids, hp, hm⟩
          · rename_i ids0 hids
            have hids : KV.get s.queue (priceKey c) = some ids0 := hids
            split
            · exact ⟨ids, hp, hm⟩
            · rename_i hd
              show ∃ ids', KV.get (KV.del s.queue (priceKey c)) p = some ids' ∧ _
              rw [KV.get_del]
              split
              · rename_i e
                rw [e, hids] at hp
                injection hp with hp
                subst hp
                exact absurd (dropId_mem hne hd hm) List.not_mem_nil
              · exact ⟨ids, hp, hm⟩
            · rename_i ids' _ hd
              show ∃ x, KV.get (KV.set s.queue (priceKey c) ids') p = some x ∧ _
              rw [KV.get_set]
              split
              · rename_i e
                rw [e, hids] at hp
                injection hp with hp
                subst hp
                exact ⟨_, rfl, dropId_mem hne hd hm⟩
              · exact ⟨ids, hp, hm⟩
        · exact ⟨ids, hp, hm⟩
      rcases hcase with ⟨_, bal, _, rfl⟩ | ⟨_, rfl⟩
      · exact key bal
      · exact key s.bal
  | world bal accounts code height time => exact same _ rfl

/-! ## Examples -/

/-- A call that waits for a callback. -/
def demoCall : Op := .create { demoReq with callback := true }

/-- The owner changes the price. -/
def demoPrice (price : Int) : Op :=
  .update { sender := demoReq.owner, id := 1, frequency := 0, expiration := 0, gasLimit := 20, maxGasPrice := price }

def demoCancel : Op := .cancel demoReq.owner demoReq.owner 1

example : (run demo demoStart [demoCall, .callback 1 5]).queue = [(3, [(1, 7)])] := by decide +kernel

example : (run demo demoStart [demoCall, .callback 1 5, demoPrice 3, demoCancel]).queue = [] := by decide +kernel

/-- **C76 is false as a whole**: if the owner changes the price of a waiting call and cancels it, the
queue keeps an entry for a call that does not exist. -/
theorem queue_stale :
    (run demo demoStart [demoCall, .callback 1 5, demoPrice 4, demoCancel]).queue = [(3, [(1, 7)])] ∧
    (run demo demoStart [demoCall, .callback 1 5, demoPrice 4, demoCancel]).crons = [] := by decide +kernel

theorem fair_demoCall : Fair demo demoStart demoCall := fair_demo

/-- The hypotheses of `queue_exact_partial` and `answered_queued_partial` can be met. -/
example : CalmReach demo 1 (step demo demoStart demoCall) ∧ 34800 < (step demo demoStart demoCall).height ∧
    ((step demo demoStart demoCall).crons.map Prod.fst) = [1] :=
  ⟨CalmReach.step _ (CalmReach.init _ _ _ _ _ (by decide)) fair_demoCall trivial, by decide +kernel, by decide +kernel⟩

/-- Those of `stale_forever` too. -/
example : Reach demo (0 + 4) (run demo demoStart [demoCall, .callback 1 5, demoPrice 4, demoCancel]) :=
  reach_run [demoCall, .callback 1 5, demoPrice 4, demoCancel] (wallet := demo) (s := demoStart) (n := 0)
    (.init _ _ _ _ _ (by decide)) ⟨fair_demoCall, trivial, trivial, trivial, trivial⟩

end Chronos
