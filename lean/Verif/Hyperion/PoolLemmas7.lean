import Verif.Hyperion.PoolLemmas6
/-!
# Nothing is lost in an honest environment
-/
namespace Hyperion
open StableSort

variable {sent : List Tx} {base : Denom → Nat} {s s' : State} {cfg : Cfg}

/-- What is locked covers the pending withdrawals, and every sender can be paid. -/
structure Safe (cfg : Cfg) (s : State) : Prop where
  cov : ∀ hid addr l, linkByAddr s.links hid addr = some l → isCosmos s.links l.denom = true →
    pendingOf s hid addr ≤ l.locked
  unb : ∀ e ∈ s.pool, cfg.blocked e.2.sender = false

theorem pendingOf_perm {a b : State} (h : a.pool.Perm b.pool) (hid addr : Nat) : pendingOf a hid addr = pendingOf b hid addr :=
  (h.map _).sum_nat

theorem isCosmos_setLocked (links : List Link) (hid addr n : Nat) (d : Denom) :
    isCosmos (setLocked links hid addr n) d = isCosmos links d := by
  unfold isCosmos setLocked
  rw [List.all_map]
  congr 1
  funext l
  simp only [Function.comp_def]
  split <;> rfl

theorem linkByAddr_key {links : List Link} {hid addr : Nat} {l : Link} (h : linkByAddr links hid addr = some l) :
    l.hid = hid ∧ l.addr = addr := by
  have := List.find?_some h
  simpa using this

theorem lockedOf_eq {links : List Link} {hid addr : Nat} {l : Link} (h : linkByAddr links hid addr = some l) :
    lockedOf links hid addr = l.locked := by
  unfold lockedOf
  rw [h]

theorem payRefund_safe (i : Inv sent base s) (hs : Safe cfg s) {tx : Tx} {ix : Index}
    (hg : KV.get s.pool (tx.hid, tx.id) = some tx) :
    Safe cfg (payRefund cfg { s with index := ix, pool := KV.del s.pool (tx.hid, tx.id) } tx).1 ∧
    (payRefund cfg { s with index := ix, pool := KV.del s.pool (tx.hid, tx.id) } tx).1.lost = s.lost := by
  have hmem := KV.mem_of_get hg
  obtain ⟨l, hl⟩ := i.linked tx (i.mem_sent (List.mem_map_of_mem (f := (·.2)) hmem))
  have hp := KV.perm_of_get i.core.dp hg
  have hpend : ∀ hid addr, pendingOf s hid addr = (if tx.hid = hid ∧ tx.token = addr then tx.amount else 0) +
      pendingOf { s with index := ix, pool := KV.del s.pool (tx.hid, tx.id) } hid addr := by
    intro hid addr
    unfold pendingOf
    rw [(hp.map _).sum_nat]
    simp only [List.map_cons, List.sum_cons]
  have hunb : ∀ e ∈ KV.del s.pool (tx.hid, tx.id), cfg.blocked e.2.sender = false := fun e he =>
    hs.unb e (KV.mem_del.1 he).1
  have hb : cfg.blocked tx.sender = false := hs.unb _ hmem
  have hloc := lockedOf_eq hl
  have hcov : isCosmos s.links l.denom = true → tx.amount ≤ l.locked := by
    intro hc
    have h1 := hs.cov _ _ _ hl hc
    have h2 := hpend tx.hid tx.token
    simp only [and_self, if_true] at h2
    omega
  unfold payRefund
  simp only [hl]
  have hcond : (isCosmos s.links l.denom && decide (lockedOf s.links tx.hid tx.token < tx.amount)) = false := by
    cases hc : isCosmos s.links l.denom with
    | false => rfl
    | true =>
      have := hcov hc
      rw [hloc]
      simp
      omega
  rw [hcond, hb]
  simp only [Bool.false_eq_true, if_false]
  have hbal : tx.amount ≤ (s.bank.mint l.denom tx.amount).bal .module l.denom := by
    rw [Bank.mint_bal]
    simp
  obtain ⟨b2, hb2⟩ := Bank.send_ok (.user tx.sender) hbal
  rw [hb2]
  simp only
  refine ⟨⟨?_, hunb⟩, trivial⟩
  intro hid addr l' hl' hc'
  simp only at hl' hc' ⊢
  have hpe : pendingOf { s with index := ix, pool := KV.del s.pool (tx.hid, tx.id) } hid addr =
      pendingOf s hid addr - (if tx.hid = hid ∧ tx.token = addr then tx.amount else 0) := by
    rw [hpend]
    omega
  show pendingOf { s with index := ix, pool := KV.del s.pool (tx.hid, tx.id) } hid addr ≤ l'.locked
  rw [hpe]
  cases hc : isCosmos s.links l.denom with
  | false =>
    rw [hc] at hl' hc'
    simp only [Bool.false_eq_true, if_false] at hl' hc'
    have := hs.cov hid addr l' hl' hc'
    omega
  | true =>
    rw [hc] at hl' hc'
    simp only [if_true] at hl' hc'
    rw [linkByAddr_setLocked] at hl'
    rw [isCosmos_setLocked] at hc'
    cases hl0 : linkByAddr s.links hid addr with
    | none => rw [hl0] at hl'; cases hl'
    | some l0 =>
      rw [hl0] at hl'
      simp only [Option.map_some, Option.some.injEq] at hl'
      obtain ⟨k1, k2⟩ := linkByAddr_key hl0
      split at hl'
      · rename_i hk
        subst hl'
        simp only at hc' ⊢
        have := hs.cov hid addr l0 hl0 hc'
        have hk' : hid = tx.hid ∧ addr = tx.token := by rw [← k1, ← k2]; exact hk
        obtain ⟨rfl, rfl⟩ := hk'
        rw [hl0] at hl
        cases hl
        rw [hloc]
        simp only [and_self, if_true]
        omega
      · rename_i hk
        subst hl'
        have := hs.cov hid addr l0 hl0 hc'
        omega

theorem refund_safe (i : Inv sent base s) (hs : Safe cfg s) {hid id sender : Nat} {ok : Bool}
    (h : refund cfg s hid id sender = some (s', ok)) : Safe cfg s' ∧ s'.lost = s.lost := by
  rcases refund_cases cfg i hid id sender h with ⟨rfl, _⟩ | ⟨tx, ix, h1, _, _, _, _, h6, h7⟩
  · exact ⟨hs, rfl⟩
  · have := payRefund_safe i hs (ix := ix) h1
    rw [← h7] at this
    exact this

theorem refundIf_safe {hid : Nat} {due : Tx → Bool} {L : List Tx} : ∀ {s s' : State}, Inv sent base s → Safe cfg s →
    refundIf cfg hid due L s = some s' → Safe cfg s' ∧ s'.lost = s.lost := by
  induction L with
  | nil =>
    intro s s' _ hs h
    cases h
    exact ⟨hs, rfl⟩
  | cons tx L ih =>
    intro s s' i hs h
    unfold refundIf at h
    split at h
    · obtain ⟨s1, ok, h1, i1, _⟩ := refund_inv cfg i hid tx.id tx.sender
      rw [h1] at h
      obtain ⟨h2, h3⟩ := refund_safe i hs h1
      obtain ⟨h4, h5⟩ := ih i1 h2 h
      exact ⟨h4, h5.trans h3⟩
    · exact ih i hs h

theorem cleanPool_safe {hid : Nat} {L : List Tx} : ∀ {s s' : State}, Inv sent base s → Safe cfg s →
    cleanPool cfg hid L s = some s' → Safe cfg s' ∧ s'.lost = s.lost := by
  induction L with
  | nil =>
    intro s s' _ hs h
    cases h
    exact ⟨hs, rfl⟩
  | cons tx L ih =>
    intro s s' i hs h
    unfold cleanPool at h
    obtain ⟨s1, ok, h1, i1, _⟩ := refund_inv cfg i hid tx.id tx.sender
    rw [h1] at h
    obtain ⟨h2, h3⟩ := refund_safe i hs h1
    obtain ⟨h4, h5⟩ := ih i1 h2 h
    exact ⟨h4, h5.trans h3⟩

theorem Safe.congr (hs : Safe cfg s) (h1 : s'.pool = s.pool) (h2 : s'.links = s.links) : Safe cfg s' := by
  refine ⟨?_, ?_⟩
  · intro hid addr l hl hc
    rw [h2] at hl hc
    have := hs.cov hid addr l hl hc
    unfold pendingOf at *
    rw [h1]
    exact this
  · rw [h1]
    exact hs.unb

theorem cancelIf_frame (due : Batch → Bool) (L : List Batch) : ∀ s : State,
    (cancelIf due L s).pool = s.pool ∧ (cancelIf due L s).links = s.links ∧ (cancelIf due L s).lost = s.lost := by
  induction L with
  | nil => exact fun _ => ⟨rfl, rfl, rfl⟩
  | cons b L ih =>
    intro s
    unfold cancelIf
    obtain ⟨h1, h2, h3⟩ := ih (if due b = true then (cancelBatch s b.hid b.token b.nonce).getD s else s)
    rw [h1, h2, h3]
    split
    · unfold cancelBatch
      split <;> exact ⟨rfl, rfl, rfl⟩
    · exact ⟨rfl, rfl, rfl⟩

theorem timeouts_safe (i : Inv sent base s) (hs : Safe cfg s) {hid projected : Nat} {paused : Bool}
    (h : timeouts cfg s hid projected paused = some s') : Safe cfg s' ∧ s'.lost = s.lost := by
  unfold timeouts at h
  obtain ⟨i1, _⟩ := cancelIf_inv (due := fun b => decide (b.timeout < projected) || paused) (L := batchesOf s hid) i
  obtain ⟨f1, f2, f3⟩ := cancelIf_frame (fun b => decide (b.timeout < projected) || paused) (batchesOf s hid) s
  generalize cancelIf (fun b => decide (b.timeout < projected) || paused) (batchesOf s hid) s = s1 at *
  obtain ⟨txs, h3, _⟩ := poolTxs_ok i1 hid
  simp only [h3] at h
  obtain ⟨h4, h5⟩ := refundIf_safe i1 (hs.congr f1 f2) h
  exact ⟨h4, h5.trans f3⟩

theorem cleanAll_safe (i : Inv sent base s) (hs : Safe cfg s) {hid : Nat}
    (h : cleanAll cfg s hid = some s') : Safe cfg s' ∧ s'.lost = s.lost := by
  unfold cleanAll at h
  obtain ⟨i1, _⟩ := cancelIf_inv (due := fun _ => true) (L := batchesOf s hid) i
  obtain ⟨f1, f2, f3⟩ := cancelIf_frame (fun _ => true) (batchesOf s hid) s
  generalize cancelIf (fun _ => true) (batchesOf s hid) s = s1 at *
  obtain ⟨txs, h3, _⟩ := poolTxs_ok i1 hid
  simp only [h3] at h
  obtain ⟨s2, hr, i2, _⟩ := refundIf_inv (cfg := cfg) (hid := hid) (due := fun _ => true) (L := txs) i1
  obtain ⟨h4, h5⟩ := refundIf_safe i1 (hs.congr f1 f2) hr
  rw [hr] at h
  simp only at h
  obtain ⟨txs2, h6, _⟩ := poolTxs_ok i2 hid
  simp only [h6] at h
  obtain ⟨h7, h8⟩ := cleanPool_safe i2 h4 h
  exact ⟨h7, h8.trans (h5.trans f3)⟩

theorem batchExecuted_safe (i : Inv sent base s) (hs : Safe cfg s) {hid token nonce orch : Nat}
    (h : batchExecuted cfg s hid token nonce orch = some s') : Safe cfg s' ∧ s'.lost = s.lost := by
  unfold batchExecuted at h
  cases hg : KV.get s.batches (hid, nonce, token) with
  | none => rw [hg] at h; cases h; exact ⟨hs, rfl⟩
  | some b =>
    rw [hg] at h
    dsimp only at h
    obtain ⟨ix', bs', e1, _⟩ := cancelEarlier_core (hid := hid) (token := token) (nonce := b.nonce)
      (L := batchesOf { s with pool := b.txs.foldl (fun p tx => KV.del p (tx.hid, tx.id)) s.pool } hid)
      (s := { s with pool := b.txs.foldl (fun p tx => KV.del p (tx.hid, tx.id)) s.pool }) (p0 := s.pool) i.core
      (fun b' hb' => (mem_batchesOf (p0 := s.pool) (s := { s with
        pool := b.txs.foldl (fun p tx => KV.del p (tx.hid, tx.id)) s.pool }) i.core hb').1)
      (batchesOf_nodup (p0 := s.pool) (s := { s with
        pool := b.txs.foldl (fun p tx => KV.del p (tx.hid, tx.id)) s.pool }) i.core hid)
    rw [e1] at h
    dsimp only at h
    obtain ⟨hn, hget⟩ := i.core.batch_ids hg
    obtain ⟨_, hp⟩ := foldl_del_perm i.core.dp hn hget
    split at h
    · cases h
    · split at h
      · cases h
      · cases h
        refine ⟨⟨?_, ?_⟩, rfl⟩
        · intro hid' addr l hl hc
          have h1 := hs.cov hid' addr l hl hc
          have h2 : pendingOf s hid' addr = _ := (hp.map _).sum_nat
          rw [List.map_append, List.sum_append] at h2
          unfold pendingOf at *
          simp only at *
          omega
        · intro e he
          exact hs.unb e (hp.mem_iff.2 (List.mem_append_right _ he))

theorem addToPool_safe (i : Inv sent base s) (hs : Safe cfg s) {sender hid dest : Nat} {d : Denom} {amount : Nat}
    {feeDenom : Denom} {fee timeout : Nat} {tx : Tx}
    (h : addToPool s sender hid dest d amount feeDenom fee timeout = some (s', tx)) (hb : cfg.blocked sender = false) :
    Safe cfg s' ∧ s'.lost = s.lost := by
  have hfresh : KV.get s.pool (hid, s.lastTx + 1) = none := by
    rw [KV.get_eq_none]
    intro e he hk
    have h1 := i.core.pkey e he
    have h2 := (i.id_le (i.mem_sent (List.mem_map_of_mem (f := (·.2)) he))).2
    rw [h1] at hk
    simp only [Prod.mk.injEq] at hk
    omega
  unfold addToPool at h
  split at h
  · cases h
  · cases hl : linkByDenom s.links hid d with
    | none => rw [hl] at h; cases h
    | some l =>
      rw [hl] at h
      dsimp only at h
      split at h
      · cases h
      · obtain ⟨m1, m2, m3⟩ := linkByDenom_spec hl
        have hla := linkByAddr_of_mem i.lk m1
        rw [m2] at hla
        generalize hL : (if isCosmos s.links d = true then _ else s.links) = links' at h
        split at h
        · cases h
        · split at h
          · cases h
          · split at h
            · cases h
            · cases h
              have hset : KV.set s.pool (hid, s.lastTx + 1) ({ id := s.lastTx + 1, sender := sender, hid := hid, dest := dest, token := l.addr, amount := amount, fee := fee, timeout := timeout } : Tx) =
                  ((hid, s.lastTx + 1), { id := s.lastTx + 1, sender := sender, hid := hid, dest := dest, token := l.addr, amount := amount, fee := fee, timeout := timeout }) :: s.pool := by
                unfold KV.set
                rw [KV.del_of_get_none hfresh]
              refine ⟨⟨?_, ?_⟩, rfl⟩
              · intro hid' addr l' hl' hc'
                simp only at hl' hc'
                unfold pendingOf
                simp only
                rw [hset]
                simp only [List.map_cons, List.sum_cons]
                have hold : ∀ l0, linkByAddr s.links hid' addr = some l0 → isCosmos s.links l0.denom = true →
                    (s.pool.map (fun e => if e.2.hid = hid' ∧ e.2.token = addr then e.2.amount else 0)).sum ≤ l0.locked :=
                  fun l0 h1 h2 => hs.cov hid' addr l0 h1 h2
                cases hc : isCosmos s.links d with
                | false =>
                  rw [hc] at hL
                  simp only [Bool.false_eq_true, if_false] at hL
                  rw [← hL] at hl' hc'
                  have := hold l' hl' hc'
                  have hne : ¬ (hid = hid' ∧ l.addr = addr) := by
                    rintro ⟨rfl, rfl⟩
                    rw [hla] at hl'
                    cases hl'
                    rw [m3, hc] at hc'
                    cases hc'
                  rw [if_neg hne]
                  omega
                | true =>
                  rw [hc] at hL
                  simp only [if_true] at hL
                  rw [← hL] at hl' hc'
                  rw [linkByAddr_setLocked] at hl'
                  rw [isCosmos_setLocked] at hc'
                  cases hl0 : linkByAddr s.links hid' addr with
                  | none => rw [hl0] at hl'; cases hl'
                  | some l0 =>
                    rw [hl0] at hl'
                    simp only [Option.map_some, Option.some.injEq] at hl'
                    obtain ⟨k1, k2⟩ := linkByAddr_key hl0
                    split at hl'
                    · rename_i hk
                      subst hl'
                      simp only at hc' ⊢
                      have h1 := hold l0 hl0 hc'
                      rw [← k1, ← k2] at hl0
                      rw [hk.1, hk.2, hla] at hl0
                      cases hl0
                      rw [lockedOf_eq hla]
                      split <;> omega
                    · rename_i hk
                      subst hl'
                      have h1 := hold l0 hl0 hc'
                      rw [if_neg (by
                        rintro ⟨rfl, rfl⟩
                        exact hk ⟨k1, k2⟩)]
                      omega
              · intro e he
                simp only at he
                rw [hset] at he
                rcases List.mem_cons.1 he with rfl | he
                · exact hb
                · exact hs.unb e he

theorem sum_zero {l : List Nat} (h : ∀ x ∈ l, x = 0) : l.sum = 0 := by
  induction l with
  | nil => rfl
  | cons a l ih => rw [List.sum_cons, h a List.mem_cons_self, ih (fun x hx => h x (List.mem_cons_of_mem _ hx))]

theorem pendingOf_unlinked (i : Inv sent base s) {hid addr : Nat} (h : linkByAddr s.links hid addr = none) :
    pendingOf s hid addr = 0 := by
  unfold pendingOf
  apply sum_zero
  intro x hx
  obtain ⟨e, he, rfl⟩ := List.mem_map.1 hx
  rw [if_neg]
  rintro ⟨rfl, rfl⟩
  obtain ⟨l, hl⟩ := i.linked e.2 (i.mem_sent (List.mem_map_of_mem (f := (·.2)) he))
  rw [hl] at h
  cases h

theorem isCosmos_append {links : List Link} {l : Link} {d : Denom} (h : isCosmos (links ++ [l]) d = true) :
    isCosmos links d = true := by
  unfold isCosmos at *
  rw [List.all_append, Bool.and_eq_true] at h
  exact h.1

theorem createLink_safe (i : Inv sent base s) (hs : Safe cfg s) {hid addr : Nat} {d : Denom} {o : Bool} :
    Safe cfg (createLink s hid addr d o) ∧ (createLink s hid addr d o).lost = s.lost := by
  refine ⟨⟨?_, hs.unb⟩, rfl⟩
  intro hid' addr' l hl hc
  unfold createLink at hl hc
  simp only at hl hc
  show pendingOf s hid' addr' ≤ l.locked
  split at hl
  · rename_i hsome
    rw [if_pos hsome] at hc
    exact hs.cov _ _ _ hl hc
  · rename_i hsome
    rw [if_neg hsome] at hc
    have hc := isCosmos_append hc
    cases h0 : linkByAddr s.links hid' addr' with
    | none =>
      rw [pendingOf_unlinked i h0]
      omega
    | some l0 =>
      rw [linkByAddr_append _ _ _ _ h0] at hl
      cases hl
      exact hs.cov _ _ _ h0 hc

theorem deposit_safe (i : Inv sent base s) (hs : Safe cfg s) {hid addr amount : Nat} {receiver : Option Nat} {evs : List Ev}
    (h : deposit cfg s hid addr amount receiver = some (s', evs)) (hh : honest cfg s (.deposit hid addr amount receiver) = true) :
    Safe cfg s' ∧ s'.lost = s.lost := by
  unfold deposit at h
  cases hl : linkByAddr s.links hid addr with
  | some l =>
    rw [hl] at h
    dsimp only at h
    cases hc : isCosmos s.links l.denom with
    | false =>
      rw [hc] at h
      simp only [Bool.false_eq_true, if_false] at h
      split at h
      · cases h
      · rename_i links hch
        split at hch
        · cases hch
          split at h
          · cases h
          · cases h
            exact ⟨hs.congr rfl rfl, rfl⟩
        · cases hch
    | true =>
      rw [hc] at h
      simp only [if_true] at h
      split at h
      · cases h
      · rename_i links hch
        split at hch
        · cases hch
        · rename_i hlt
          cases hch
          split at h
          · cases h
          · cases h
            refine ⟨⟨?_, hs.unb⟩, rfl⟩
            intro hid' addr' l' hl' hc'
            simp only at hl' hc'
            show pendingOf s hid' addr' ≤ l'.locked
            rw [linkByAddr_setLocked] at hl'
            rw [isCosmos_setLocked] at hc'
            cases hl0 : linkByAddr s.links hid' addr' with
            | none => rw [hl0] at hl'; cases hl'
            | some l0 =>
              rw [hl0] at hl'
              simp only [Option.map_some, Option.some.injEq] at hl'
              obtain ⟨k1, k2⟩ := linkByAddr_key hl0
              split at hl'
              · rename_i hk
                subst hl'
                have hk' : hid' = hid ∧ addr' = addr := ⟨k1.symm.trans hk.1, k2.symm.trans hk.2⟩
                obtain ⟨rfl, rfl⟩ := hk'
                simp only [honest, hl, Option.map_some, hc, Bool.or_eq_true, decide_eq_true_eq, ne_eq, not_true_eq_false,
                  or_false] at hh
                simp only
                omega
              · subst hl'
                exact hs.cov _ _ _ hl0 hc'
  | none =>
    rw [hl] at h
    dsimp only at h
    simp only [Bool.false_eq_true, if_false] at h
    split at h
    · cases h
    · rename_i links hch
      split at hch
      · cases hch
        split at h
        · cases h
        · cases h
          obtain ⟨h1, h2⟩ := createLink_safe (cfg := cfg) i hs (hid := hid) (addr := addr) (d := .bridged hid addr) (o := true)
          exact ⟨h1.congr rfl rfl, h2⟩
      · cases hch

theorem step_safe (i : Inv sent base s) (hs : Safe cfg s) (o : Op) (hh : honest cfg s o = true) :
    Safe cfg (step cfg s o).1 ∧ (step cfg s o).1.lost = s.lost := by
  cases o with
  | send sender hid dest d amount feeDenom fee timeout =>
    simp only [step]
    cases h : addToPool s sender hid dest d amount feeDenom fee timeout with
    | none => exact ⟨hs, rfl⟩
    | some r =>
      obtain ⟨s', tx⟩ := r
      exact addToPool_safe i hs h (by simpa [honest] using hh)
  | cancelSend sender hid id =>
    simp only [step]
    obtain ⟨s', ok, h1, h2, _⟩ := refund_inv cfg i hid id sender
    have := refund_safe i hs h1
    rw [h1]
    cases ok
    · exact ⟨hs, rfl⟩
    · exact this
  | requestBatch hid d timeout =>
    simp only [step]
    cases hl : linkByDenom s.links hid d with
    | none => exact ⟨hs, rfl⟩
    | some l =>
      simp only
      cases h : buildBatch cfg s hid l.addr timeout with
      | none => exact ⟨hs, rfl⟩
      | some r =>
        unfold buildBatch at h
        split at h
        · cases h
        · dsimp only at h
          split at h
          · cases h
          · cases h
            exact ⟨hs.congr rfl rfl, rfl⟩
  | requestBatchIds hid d timeout ids =>
    simp only [step]
    cases hl : linkByDenom s.links hid d with
    | none => exact ⟨hs, rfl⟩
    | some l =>
      simp only
      cases h : buildBatchIds cfg s hid l.addr timeout ids with
      | none => exact ⟨hs, rfl⟩
      | some r =>
        unfold buildBatchIds at h
        split at h
        · cases h
        · split at h
          · cases h
          · split at h
            · cases h
            · cases h
              exact ⟨hs.congr rfl rfl, rfl⟩
  | deposit hid addr amount receiver =>
    simp only [step]
    cases h : deposit cfg s hid addr amount receiver with
    | none => exact ⟨hs, rfl⟩
    | some r =>
      obtain ⟨s', evs⟩ := r
      exact deposit_safe i hs h hh
  | executed hid token nonce orch =>
    simp only [step]
    cases h : batchExecuted cfg s hid token nonce orch with
    | none => exact ⟨hs, rfl⟩
    | some s' => exact batchExecuted_safe i hs h
  | timeouts hid projected paused =>
    simp only [step]
    cases h : timeouts cfg s hid projected paused with
    | none => exact ⟨hs, rfl⟩
    | some s' => exact timeouts_safe i hs h
  | cleanAll hid =>
    simp only [step]
    cases h : cleanAll cfg s hid with
    | none => exact ⟨hs, rfl⟩
    | some s' => exact cleanAll_safe i hs h
  | link hid addr d =>
    simp only [step]
    split
    · exact ⟨hs, rfl⟩
    · exact createLink_safe i hs
  | transfer src dst d n =>
    simp only [step]
    split
    · exact ⟨hs, rfl⟩
    · exact ⟨hs.congr rfl rfl, rfl⟩
  | dataRequest origin hid contract fee =>
    simp only [step]
    cases h : dataRequest s origin hid contract fee with
    | none => exact ⟨hs, rfl⟩
    | some s' =>
      unfold dataRequest at h
      split at h
      · cases h
      · cases h
        exact ⟨hs.congr rfl rfl, rfl⟩
  | dataExecute hid nonce contract votes =>
    simp only [step, dataExecute]
    split
    · exact ⟨hs, rfl⟩
    · exact ⟨hs.congr rfl rfl, rfl⟩
  | dataTimeout hid nonce contract =>
    simp only [step, dataTimeout]
    split
    · exact ⟨hs, rfl⟩
    · exact ⟨hs.congr rfl rfl, rfl⟩

theorem run_safe (ops : List Op) : ∀ {sent : List Tx} {base : Denom → Nat} {s : State}, Inv sent base s → Safe cfg s →
    honestRun cfg s ops = true → (run cfg s ops).1.lost = s.lost := by
  induction ops with
  | nil => exact fun _ _ _ => rfl
  | cons o os ih =>
    intro sent base s i hs hh
    obtain ⟨h1, h2⟩ := (Bool.and_eq_true _ _ ▸ hh : _ ∧ _)
    obtain ⟨h3, h4⟩ := step_safe i hs o h1
    simp only [run]
    exact (ih (step_inv cfg i o) h3 h2).trans h4

end Hyperion
