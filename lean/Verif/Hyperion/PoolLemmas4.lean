import Verif.Hyperion.PoolLemmas3
/-!
# Every operation keeps the invariant
-/
namespace Hyperion
open StableSort

variable {sent : List Tx} {base : Denom → Nat} {s s' : State}

/-! ## Batches -/

theorem mem_batchesOf {p0 : List ((Nat × Nat) × Tx)} {hid : Nat} (c : Core p0 s.index s.batches) {b : Batch}
    (h : b ∈ batchesOf s hid) : KV.get s.batches (b.hid, b.nonce, b.token) = some b ∧ b.hid = hid := by
  unfold batchesOf at h
  obtain ⟨e, he, rfl⟩ := List.mem_map.1 h
  have he := (sortBy_perm _ _).mem_iff.1 he
  obtain ⟨h1, h2⟩ := List.mem_filter.1 he
  have hk := c.bkey e h1
  refine ⟨?_, ?_⟩
  · rw [← hk]
    exact KV.get_of_mem c.db h1
  · rw [hk] at h2
    simpa using h2

theorem batchesOf_mem {hid : Nat} {k : Nat × Nat × Nat} {b : Batch} (h : KV.get s.batches k = some b) (hk : k.1 = hid) :
    b ∈ batchesOf s hid := by
  unfold batchesOf
  refine List.mem_map.2 ⟨(k, b), (sortBy_perm _ _).mem_iff.2 (List.mem_filter.2 ⟨KV.mem_of_get h, by simpa using hk⟩), rfl⟩

theorem batchesOf_nodup {p0 : List ((Nat × Nat) × Tx)} (c : Core p0 s.index s.batches) (hid : Nat) :
    ((batchesOf s hid).map (fun b => (b.hid, b.nonce, b.token))).Nodup := by
  unfold batchesOf
  rw [List.map_map]
  have hp : ((sortBy (fun a b => keyGe a.1 b.1) (s.batches.filter (fun e => decide (e.1.1 = hid)))).map
      ((fun b : Batch => (b.hid, b.nonce, b.token)) ∘ (·.2))).Perm
      ((s.batches.filter (fun e => decide (e.1.1 = hid))).map ((fun b : Batch => (b.hid, b.nonce, b.token)) ∘ (·.2))) :=
    (sortBy_perm _ _).map _
  rw [hp.nodup_iff]
  have : (s.batches.filter (fun e => decide (e.1.1 = hid))).map ((fun b : Batch => (b.hid, b.nonce, b.token)) ∘ (·.2)) =
      (s.batches.filter (fun e => decide (e.1.1 = hid))).map (·.1) := by
    apply List.map_congr_left
    intro e he
    exact (c.bkey e (List.mem_filter.1 he).1).symm
  rw [this]
  exact List.Nodup.sublist (List.filter_sublist.map _) c.db

theorem cancelEarlier_core {p0 : List ((Nat × Nat) × Tx)} {hid token nonce : Nat} {L : List Batch} :
    ∀ {s : State}, Core p0 s.index s.batches → (∀ b ∈ L, KV.get s.batches (b.hid, b.nonce, b.token) = some b) →
      (L.map (fun b => (b.hid, b.nonce, b.token))).Nodup →
      ∃ ix' bs', cancelEarlier hid token nonce L s = some { s with index := ix', batches := bs' } ∧ Core p0 ix' bs' ∧
        (∀ e ∈ bs', e ∈ s.batches) ∧ (∀ k, nonce ≤ k.2.1 → KV.get bs' k = KV.get s.batches k) := by
  induction L with
  | nil =>
    intro s c _ _
    exact ⟨s.index, s.batches, rfl, c, fun _ h => h, fun _ _ => rfl⟩
  | cons b L ih =>
    intro s c hL hn
    rw [List.map_cons, List.nodup_cons] at hn
    unfold cancelEarlier
    split
    · rename_i hc
      obtain ⟨h1, h2, h3⟩ := hc
      have hg := hL b List.mem_cons_self
      rw [h3] at hg
      have hcc := c.cancel hg
      unfold cancelBatch
      rw [hg]
      simp only
      obtain ⟨ix', bs', e1, e2, e3, e4⟩ := ih (s := { s with
          index := b.txs.foldl (fun ix tx => prependIdx ix (b.hid, token, tx.fee) tx.id) s.index
          batches := KV.del s.batches (b.hid, b.nonce, b.token) }) hcc (by
        intro b' hb'
        simp only
        rw [KV.get_del, if_neg]
        · exact hL b' (List.mem_cons_of_mem _ hb')
        · intro heq
          apply hn.1
          rw [← heq]
          exact List.mem_map_of_mem (f := fun b : Batch => (b.hid, b.nonce, b.token)) hb') hn.2
      refine ⟨ix', bs', e1, e2, fun e he => (KV.mem_del.1 (e3 e he)).1, ?_⟩
      intro k hk
      rw [e4 k hk]
      simp only
      rw [KV.get_del, if_neg]
      rintro rfl
      simp only at hk
      omega
    · exact ih c (fun b' hb' => hL b' (List.mem_cons_of_mem _ hb')) hn.2

theorem Inv.setBatches (i : Inv sent base s) {ix' : Index} {bs' : List ((Nat × Nat × Nat) × Batch)}
    (c : Core s.pool ix' bs') (hsub : ∀ e ∈ bs', e ∈ s.batches) : Inv sent base { s with index := ix', batches := bs' } where
  core := c
  acc := i.acc
  ids := i.ids
  nle := fun e he => i.nle e (hsub e he)
  dd := i.dd
  dkey := i.dkey
  dnle := i.dnle
  lk := i.lk
  linked := i.linked
  ledger := i.ledger
  escrow := i.escrow

theorem cancelBatch_inv (i : Inv sent base s) {hid token nonce : Nat} (h : cancelBatch s hid token nonce = some s') :
    Inv sent base s' ∧ Paid s s' := by
  unfold cancelBatch at h
  cases hg : KV.get s.batches (hid, nonce, token) with
  | none => rw [hg] at h; cases h
  | some b =>
    rw [hg] at h
    cases h
    exact ⟨i.setBatches (i.core.cancel hg) (fun e he => (KV.mem_del.1 he).1),
      LinksExt.refl _, [], rfl, rfl, fun u d => by simp [refundTo]⟩

theorem map_filter_executed (l : List Tx) (r : Ended) (f : List (Tx × Ended)) :
    ((l.map (fun tx => (tx, r)) ++ f).filter (fun e => decide (e.2 = r))).map (·.1) =
      l ++ (f.filter (fun e => decide (e.2 = r))).map (·.1) := by
  induction l with
  | nil => rfl
  | cons t l ih => rw [List.map_cons, List.cons_append, List.filter_cons_of_pos (by simp), List.map_cons, ih, List.cons_append]

theorem batchExecuted_inv {cfg : Cfg} (i : Inv sent base s) (hid token nonce : Nat) {orch : Nat}
    (hb : cfg.blocked orch = false) :
    ∃ s', batchExecuted cfg s hid token nonce orch = some s' ∧ Inv sent base s' := by
  unfold batchExecuted
  cases hg : KV.get s.batches (hid, nonce, token) with
  | none => exact ⟨s, rfl, i⟩
  | some b =>
    simp only [hb]
    have hk := i.core.bkey_get hg
    obtain ⟨ix', bs', e1, e2, e3, e4⟩ := cancelEarlier_core (hid := hid) (token := token) (nonce := b.nonce)
      (L := batchesOf { s with pool := b.txs.foldl (fun p tx => KV.del p (tx.hid, tx.id)) s.pool } hid)
      (s := { s with pool := b.txs.foldl (fun p tx => KV.del p (tx.hid, tx.id)) s.pool }) (p0 := s.pool) i.core
      (fun b' hb' => (mem_batchesOf (p0 := s.pool) (s := { s with
        pool := b.txs.foldl (fun p tx => KV.del p (tx.hid, tx.id)) s.pool }) i.core hb').1)
      (batchesOf_nodup (p0 := s.pool) (s := { s with
        pool := b.txs.foldl (fun p tx => KV.del p (tx.hid, tx.id)) s.pool }) i.core hid)
    rw [e1]
    simp only [Bool.false_eq_true, if_false]
    have hg' : KV.get bs' (hid, nonce, token) = some b := by
      rw [e4 _ (by rw [hk]; exact Nat.le_refl _)]
      exact hg
    obtain ⟨hc, hp⟩ := e2.exec hg'
    have hfee : feesOf (s.pool.map (·.2)) = feesOf b.txs +
        feesOf ((b.txs.foldl (fun p tx => KV.del p (tx.hid, tx.id)) s.pool).map (·.2)) := by
      rw [feesOf_perm hp, feesOf_append]
    have hesc := i.escrow
    rw [hfee] at hesc
    obtain ⟨bk, hbk⟩ := Bank.send_ok (b := s.bank) (src := .module) (d := ahelios) (n := feesOf b.txs) (.user orch) (by omega)
    obtain ⟨g1, g2, g3⟩ := Bank.send_some hbk
    rw [hbk]
    refine ⟨_, rfl, ?_⟩
    refine
      { core := hc
        acc := ?_
        ids := i.ids
        nle := fun e he => i.nle e (e3 e (KV.mem_del.1 he).1)
        dd := i.dd
        dkey := i.dkey
        dnle := i.dnle
        lk := i.lk
        linked := i.linked
        ledger := ?_
        escrow := ?_ }
    · refine List.Perm.trans ?_ i.acc
      refine List.Perm.append_right _ ?_
      simp only [List.map_append, List.map_map, Function.comp_def, List.map_id']
      refine (List.perm_append_comm_assoc _ _ _).trans ?_
      rw [← List.append_assoc]
      exact hp.symm.append_right _
    · intro d
      have := i.ledger d
      rw [← this]
      show bk.supply d + _ = _
      rw [g2]
      congr 1
      apply amountIn_perm
      unfold burnt endedAs
      simp only
      refine List.Perm.append_right _ ?_
      rw [map_filter_executed]
      refine (List.perm_append_comm_assoc _ _ _).trans ?_
      rw [← List.append_assoc]
      exact hp.symm.append_right _
    · show feesOf _ + dataFees s ≤ bk.bal .module ahelios
      rw [g3]
      simp only [reduceCtorEq, false_and, if_false, Nat.add_zero, and_self, if_true]
      omega

/-! ## Timeouts and resets -/

theorem cancelIf_inv {due : Batch → Bool} {L : List Batch} : ∀ {s : State}, Inv sent base s →
    Inv sent base (cancelIf due L s) ∧ Paid s (cancelIf due L s) := by
  induction L with
  | nil => exact fun i => ⟨i, Paid.refl _⟩
  | cons b L ih =>
    intro s i
    unfold cancelIf
    split
    · cases hc : cancelBatch s b.hid b.token b.nonce with
      | none => exact ih i
      | some s' =>
        obtain ⟨h1, h2⟩ := cancelBatch_inv i hc
        obtain ⟨h3, h4⟩ := ih h1
        exact ⟨h3, h2.trans h1 h4⟩
    · exact ih i

theorem refundIf_inv {cfg : Cfg} {hid : Nat} {due : Tx → Bool} {L : List Tx} : ∀ {s : State}, Inv sent base s →
    ∃ s', refundIf cfg hid due L s = some s' ∧ Inv sent base s' ∧ Paid s s' := by
  induction L with
  | nil => exact fun i => ⟨_, rfl, i, Paid.refl _⟩
  | cons tx L ih =>
    intro s i
    unfold refundIf
    split
    · obtain ⟨s1, ok, h1, h2, h3⟩ := refund_inv cfg i hid tx.id tx.sender
      obtain ⟨s2, h4, h5, h6⟩ := ih h2
      rw [h1]
      exact ⟨s2, h4, h5, h3.trans h2 h6⟩
    · exact ih i

theorem cleanPool_inv {cfg : Cfg} {hid : Nat} {L : List Tx} : ∀ {s : State}, Inv sent base s →
    ∃ s', cleanPool cfg hid L s = some s' ∧ Inv sent base s' ∧ Paid s s' := by
  induction L with
  | nil => exact fun i => ⟨_, rfl, i, Paid.refl _⟩
  | cons tx L ih =>
    intro s i
    unfold cleanPool
    obtain ⟨s1, ok, h1, h2, h3⟩ := refund_inv cfg i hid tx.id tx.sender
    obtain ⟨s2, h4, h5, h6⟩ := ih h2
    rw [h1]
    exact ⟨s2, h4, h5, h3.trans h2 h6⟩

theorem timeouts_inv (cfg : Cfg) (i : Inv sent base s) (hid projected : Nat) (paused : Bool) :
    ∃ s', timeouts cfg s hid projected paused = some s' ∧ Inv sent base s' ∧ Paid s s' := by
  unfold timeouts
  obtain ⟨h1, h2⟩ := cancelIf_inv (due := fun b => decide (b.timeout < projected) || paused) (L := batchesOf s hid) i
  obtain ⟨txs, h3, _⟩ := poolTxs_ok h1 hid
  simp only [h3]
  obtain ⟨s', h4, h5, h6⟩ := refundIf_inv (cfg := cfg) (hid := hid)
    (due := fun tx => decide (tx.timeout < projected) || paused) (L := txs) h1
  exact ⟨s', h4, h5, h2.trans h1 h6⟩

theorem cleanAll_inv (cfg : Cfg) (i : Inv sent base s) (hid : Nat) :
    ∃ s', cleanAll cfg s hid = some s' ∧ Inv sent base s' ∧ Paid s s' := by
  unfold cleanAll
  obtain ⟨h1, h2⟩ := cancelIf_inv (due := fun _ => true) (L := batchesOf s hid) i
  obtain ⟨txs, h3, _⟩ := poolTxs_ok h1 hid
  simp only [h3]
  obtain ⟨s1, h4, h5, h6⟩ := refundIf_inv (cfg := cfg) (hid := hid) (due := fun _ => true) (L := txs) h1
  rw [h4]
  obtain ⟨txs2, h7, _⟩ := poolTxs_ok h5 hid
  simp only [h7]
  obtain ⟨s2, h8, h9, h10⟩ := cleanPool_inv (cfg := cfg) (hid := hid) (L := txs2) h5
  exact ⟨s2, h8, h9, h2.trans h1 (h6.trans h5 h10)⟩

/-! ## Submitting -/

theorem addToPool_inv (i : Inv sent base s) {sender hid dest : Nat} {d : Denom} {amount : Nat} {feeDenom : Denom}
    {fee timeout : Nat} {tx : Tx} (h : addToPool s sender hid dest d amount feeDenom fee timeout = some (s', tx)) :
    Inv (sent ++ [tx]) base s' ∧ tx.id = s.lastTx + 1 ∧ tx.sender = sender ∧ tx.hid = hid ∧ tx.dest = dest ∧
      tx.amount = amount ∧ tx.fee = fee ∧ denomOf s'.links tx = some d ∧ feeDenom = ahelios ∧ 0 < amount ∧
      (∀ u e, s'.bank.bal (.user u) e + (if u = sender then (if e = d then amount else 0) +
        (if e = ahelios then fee else 0) else 0) = s.bank.bal (.user u) e) := by
  unfold addToPool at h
  split at h
  · cases h
  · rename_i hfd
    split at h
    · cases h
    · rename_i l hl
      split at h
      · cases h
      · rename_i hz
        dsimp only at h
        have hext := ite_setLocked_ext (isCosmos s.links d) s.links hid l.addr (lockedOf s.links hid l.addr + amount)
        have hok := ite_setLocked_ok i.lk (isCosmos s.links d) hid l.addr (lockedOf s.links hid l.addr + amount)
        generalize hL : (if isCosmos s.links d = true then setLocked s.links hid l.addr
                (lockedOf s.links hid l.addr + amount) else s.links) = links' at h hext hok
        split at h
        · cases h
        · rename_i b1 hb1
          split at h
          · cases h
          · rename_i b2 hb2
            split at h
            · cases h
            · rename_i b3 hb3
              cases h
              obtain ⟨p1, p2, p3⟩ := Bank.send_some hb1
              obtain ⟨q1, q2, q3, q4⟩ := Bank.burn_some hb2
              obtain ⟨r1, r2, r3⟩ := Bank.send_some hb3
              obtain ⟨hlm, hlh, hld⟩ := linkByDenom_spec hl
              have hla : linkByAddr s.links hid l.addr = some l := by
                rw [← hlh]
                exact linkByAddr_of_mem i.lk hlm
              obtain ⟨l', hl1, hl2⟩ := hext _ _ _ hla
              generalize hT : ({ id := s.lastTx + 1, sender := sender, hid := hid, dest := dest, token := l.addr, amount := amount, fee := fee, timeout := timeout } : Tx) = tx
              have hden : denomOf links' tx = some d := by
                rw [← hT]
                simp [denomOf, hl1, hl2, hld]
              have hfresh : ∀ e ∈ s.pool, e.2.id ≠ tx.id := by
                intro e he
                have := (i.id_le (i.mem_sent (List.mem_map_of_mem (f := (·.2)) he))).2
                rw [← hT]
                simp only
                omega
              have hcore := i.core.add hfresh
              have hset : (KV.set s.pool (tx.hid, tx.id) tx).map (·.2) = tx :: s.pool.map (·.2) := by
                unfold KV.set
                rw [KV.del_of_get_none]
                · rfl
                · rw [KV.get_eq_none]
                  intro e he heq
                  rw [i.core.pkey e he] at heq
                  exact hfresh e he (Prod.mk.inj heq).2
              have hbl : Linked s.links (burnt s) := fun t ht => i.linked t (i.burnt_sent ht)
              refine ⟨?_, by rw [← hT], by rw [← hT], by rw [← hT], by rw [← hT], by rw [← hT], by rw [← hT], hden,
                by simpa using hfd, by omega, ?_⟩
              · have h1 : (hid, s.lastTx + 1) = (tx.hid, tx.id) := by rw [← hT]
                have h2 : (hid, l.addr, fee) = (tx.hid, tx.token, tx.fee) := by rw [← hT]
                have h3 : s.lastTx + 1 = tx.id := by rw [← hT]
                refine
                  { core := ?_
                    acc := ?_
                    ids := ?_
                    nle := i.nle
                    dd := i.dd
                    dkey := i.dkey
                    dnle := i.dnle
                    lk := hok
                    linked := ?_
                    ledger := ?_
                    escrow := ?_ }
                · simp only
                  rw [h1, h2, h3]
                  exact hcore
                · simp only
                  rw [h1, hset]
                  simp only [List.cons_append]
                  exact (i.acc.cons tx).trans (List.perm_append_singleton _ _).symm
                · simp only [List.map_append, i.ids, List.map_cons, List.map_nil]
                  rw [List.range'_concat, ← h3]
                  simp [Nat.add_comm]
                · intro t ht
                  rcases List.mem_append.1 ht with ht | ht
                  · exact i.linked.ext hext t ht
                  · rw [List.mem_singleton.1 ht, ← hT]
                    exact ⟨l', hl1⟩
                · intro e
                  have hle := i.ledger e
                  show b3.supply e + amountIn links' e ((KV.set s.pool (hid, s.lastTx + 1) tx).map (·.2) ++
                    endedAs s .executed ++ (s.lost.filter (fun e => !e.2)).map (·.1)) = base e
                  rw [h1, hset]
                  show b3.supply e + amountIn links' e (tx :: burnt s) = base e
                  rw [amountIn_cons, amountIn_ext hext e hbl, hden, r2, q3, p2]
                  simp only [Option.some.injEq]
                  rw [ite_eq_symm]
                  have ha : tx.amount = amount := by rw [← hT]
                  rw [ha]
                  rw [p2] at q2
                  split
                  · rename_i hde
                    subst hde
                    omega
                  · omega
                · simp only
                  rw [h1, hset, feesOf_cons]
                  have hf : tx.fee = fee := by rw [← hT]
                  have := i.escrow
                  show tx.fee + feesOf (s.pool.map (·.2)) + dataFees s ≤ b3.bal .module ahelios
                  rw [r3, q4, p3, hf]
                  simp only [reduceCtorEq, false_and, if_false, Nat.sub_zero, true_and, and_self, if_true]
                  split <;> omega
              · intro u e
                show b3.bal (.user u) e + _ = _
                rw [r3, q4, p3]
                rw [q4, p3] at r1
                simp only [reduceCtorEq, false_and, if_false, Nat.sub_zero, Nat.add_zero, Acct.user.injEq, true_and] at *
                by_cases hu : u = sender
                · subst hu
                  simp only [true_and, if_true]
                  by_cases h4 : e = d
                  · subst h4
                    by_cases h5 : e = ahelios
                    · subst h5
                      simp only [if_true] at *
                      omega
                    · simp only [h5, if_false, if_true]
                      omega
                  · by_cases h5 : e = ahelios
                    · subst h5
                      simp only [h4, if_false, if_true] at *
                      omega
                    · simp only [h4, h5, if_false]
                      omega
                · simp [hu]

/-! ## Building batches -/

theorem storeNewBatch_inv (i : Inv sent base s) {hid token timeout : Nat} {ix' : Index} {sel : List Tx}
    (hd : KV.Distinct ix') (hp : (tagsIx s.index).Perm (sel.map Tx.tag ++ tagsIx ix'))
    (hsel : ∀ tx ∈ sel, KV.get s.pool (tx.hid, tx.id) = some tx ∧ tx.hid = hid ∧ tx.token = token) :
    Inv sent base (storeNewBatch s hid token timeout ix' sel).1 := by
  have hfresh : KV.get s.batches (hid, s.lastBatch hid + 1, token) = none := by
    rw [KV.get_eq_none]
    intro e he heq
    have h1 := i.core.bkey e he
    have h2 := i.nle e he
    rw [heq] at h1
    simp only [Prod.mk.injEq] at h1
    obtain ⟨h3, h4, _⟩ := h1
    rw [← h3, ← h4] at h2
    omega
  have hcore := i.core.batch (b := { nonce := s.lastBatch hid + 1, timeout := timeout, txs := sel, token := token, hid := hid })
    hd hp hsel hfresh
  unfold storeNewBatch
  refine
    { core := hcore
      acc := i.acc
      ids := i.ids
      nle := ?_
      dd := i.dd
      dkey := i.dkey
      dnle := ?_
      lk := i.lk
      linked := i.linked
      ledger := i.ledger
      escrow := i.escrow }
  · intro e he
    simp only at he ⊢
    rw [KV.mem_set] at he
    rcases he with rfl | ⟨he, _⟩
    · simp
    · have := i.nle e he
      split
      · rename_i h
        rw [h] at this
        omega
      · exact this
  · intro e he
    have := i.dnle e he
    simp only
    split
    · rename_i h
      rw [h] at this
      omega
    · exact this

theorem buildBatch_pick (i : Inv sent base s) {cfg : Cfg} (hlim : cfg.limit ≠ 0) (hid token : Nat) :
    ∃ txs ix', lookupAll s.pool hid (idsOfToken s.index hid token) = some txs ∧
      pick s.pool hid token cfg.limit (idsOfToken s.index hid token) s.index [] = (ix', txs.take cfg.limit) ∧
      KV.Distinct ix' ∧ (tagsIx s.index).Perm ((txs.take cfg.limit).map Tx.tag ++ tagsIx ix') ∧
      (txs.map Tx.tag).Perm ((tagsIx s.index).filter (fun t => decide (t.1.1 = hid ∧ t.1.2.1 = token))) ∧
      txs.map (·.id) = idsOfToken s.index hid token ∧
      (∀ tx ∈ txs, KV.get s.pool (tx.hid, tx.id) = some tx ∧ tx.hid = hid ∧ tx.token = token) := by
  obtain ⟨txs, h1, h2, h3, h4⟩ := i.core.lookupToken hid token
  have hmem : ∀ tx ∈ txs, tx.hid = hid ∧ tx.token = token ∧ tx.tag ∈ tagsIx s.index := by
    intro tx ht
    have := List.mem_filter.1 (h3.mem_iff.1 (List.mem_map_of_mem ht))
    have h5 : tx.hid = hid ∧ tx.token = token := of_decide_eq_true this.2
    exact ⟨h5.1, h5.2, this.1⟩
  have hnd : (idsOfToken s.index hid token).Nodup := by
    rw [(idsOfToken_perm s.index hid token).nodup_iff]
    exact List.Nodup.sublist (List.filter_sublist.map _) i.core.ids_nodup
  obtain ⟨ix', e1, e2, e3⟩ := pick_spec (max := cfg.limit) (token := token) h1 (ix := s.index) (sel := []) i.core.dix
    (by simp; omega) hnd hmem h2
  simp only [List.length_nil, Nat.sub_zero, List.nil_append] at e1 e3
  exact ⟨txs, ix', h1, e1, e2, e3, h3, h2, fun tx ht => ⟨(h4 tx ht).1, (hmem tx ht).1, (hmem tx ht).2.1⟩⟩

theorem buildBatch_inv {cfg : Cfg} (i : Inv sent base s) {hid token timeout : Nat} {b : Batch}
    (h : buildBatch cfg s hid token timeout = some (s', b)) : Inv sent base s' := by
  unfold buildBatch at h
  simp only at h
  split at h
  · cases h
  · rename_i hc
    have hlim : cfg.limit ≠ 0 := fun hl => hc (Or.inl hl)
    obtain ⟨txs, ix', _, e1, e2, e3, _, _, e4⟩ := buildBatch_pick i hlim hid token
    rw [e1] at h
    simp only at h
    split at h
    · cases h
    · simp only [Option.some.injEq] at h
      have := storeNewBatch_inv (timeout := timeout) i e2 e3 (fun tx ht => e4 tx (List.mem_of_mem_take ht))
      rw [h] at this
      exact this

theorem pickIds_inv {cfg : Cfg} (i : Inv sent base s) {hid token : Nat} (hlim : cfg.limit ≠ 0) {ids : List Nat}
    {ix' : Index} {sel : List Tx} (h : pickIds s.pool hid token cfg.limit ids s.index [] = some (ix', sel)) :
    sel.length ≤ cfg.limit ∧ KV.Distinct ix' ∧ (tagsIx s.index).Perm (sel.map Tx.tag ++ tagsIx ix') ∧
      sel.map (·.id) = ids.take sel.length ∧ (sel.length < cfg.limit → sel.length = ids.length) ∧
      ∀ tx ∈ sel, KV.get s.pool (tx.hid, tx.id) = some tx ∧ tx.hid = hid ∧ tx.token = token := by
  obtain ⟨taken, e1, e2, e3, e4, e5, e6, e7⟩ := pickIds_spec (fun id tx h => i.core.key h) i.core.dix
    (by simp; omega) (by
      intro tx h1 h2
      obtain ⟨tx', h3, h4⟩ := i.core.tag_mem h2
      have h5 : tx'.id = tx.id := congrArg (·.2) h4
      have h6 : tx'.hid = hid := congrArg (·.1.1) h4
      have h7 : tx'.token = token := congrArg (·.1.2.1) h4
      rw [h5, h6, h1] at h3
      cases h3
      exact h7) h
  simp only [List.nil_append] at e1
  subst e1
  exact ⟨e2, e3, e4, e5, e6, e7⟩

theorem buildBatchIds_inv {cfg : Cfg} (i : Inv sent base s) {hid token timeout : Nat} {ids : List Nat} {b : Batch}
    (h : buildBatchIds cfg s hid token timeout ids = some (s', b)) : Inv sent base s' := by
  unfold buildBatchIds at h
  split at h
  · cases h
  · rename_i hlim
    cases hp : pickIds s.pool hid token cfg.limit ids s.index [] with
    | none => rw [hp] at h; cases h
    | some r =>
      obtain ⟨ix', sel⟩ := r
      rw [hp] at h
      simp only at h
      split at h
      · cases h
      · simp only [Option.some.injEq] at h
        obtain ⟨_, e2, e3, _, _, e4⟩ := pickIds_inv i hlim hp
        have := storeNewBatch_inv (timeout := timeout) i e2 e3 e4
        rw [h] at this
        exact this

end Hyperion
