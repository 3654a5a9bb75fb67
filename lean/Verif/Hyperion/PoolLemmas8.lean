import Verif.Hyperion.PoolLemmas7
/-!
# The withdrawals behind the index; the order in which batches are filled
-/
namespace Hyperion
open StableSort

variable {sent : List Tx} {base : Denom → Nat} {s s' : State} {cfg : Cfg}

theorem Reachable.inv (h : Reachable cfg s) : ∃ sent base, Inv sent base s := by
  obtain ⟨bank, links, ops, hl, rfl⟩ := h
  exact ⟨_, _, run_inv cfg ops (Inv.init bank hl)⟩

theorem refund_lost (i : Inv sent base s) {hid id sender : Nat} {ok : Bool}
    (h : refund cfg s hid id sender = some (s', ok)) {e : Tx × Bool} (he : e ∈ s.lost) : e ∈ s'.lost := by
  rcases refund_cases cfg i hid id sender h with ⟨rfl, _⟩ | ⟨tx', ix, _, _, _, _, _, _, c7⟩
  · exact he
  · have : ∀ (sx : State), sx.lost = s.lost → e ∈ (payRefund cfg sx tx').1.lost := by
      intro sx hsx
      rw [← hsx] at he
      unfold payRefund
      split
      · exact List.mem_cons_of_mem _ he
      · dsimp only
        split
        · exact List.mem_cons_of_mem _ he
        · split
          · exact List.mem_cons_of_mem _ he
          · split
            · exact List.mem_cons_of_mem _ he
            · exact he
    have := this { s with index := ix, pool := KV.del s.pool (tx'.hid, tx'.id) } rfl
    rw [← c7] at this
    exact this

theorem refundIf_lost {hid : Nat} {due : Tx → Bool} {e : Tx × Bool} {L : List Tx} : ∀ {s s' : State}, Inv sent base s →
    refundIf cfg hid due L s = some s' → e ∈ s.lost → e ∈ s'.lost := by
  induction L with
  | nil =>
    intro s s' _ h he
    cases h
    exact he
  | cons tx L ih =>
    intro s s' i h he
    unfold refundIf at h
    split at h
    · obtain ⟨s1, ok, h1, i1, _⟩ := refund_inv cfg i hid tx.id tx.sender
      rw [h1] at h
      exact ih i1 h (refund_lost i h1 he)
    · exact ih i h he

/-- Lost withdrawals stay lost. -/
theorem timeouts_lost (i : Inv sent base s) {hid projected : Nat} {paused : Bool}
    (h : timeouts cfg s hid projected paused = some s') {e : Tx × Bool} (he : e ∈ s.lost) : e ∈ s'.lost := by
  unfold timeouts at h
  obtain ⟨i1, _⟩ := cancelIf_inv (due := fun b => decide (b.timeout < projected) || paused) (L := batchesOf s hid) i
  obtain ⟨f1, f2, f3⟩ := cancelIf_frame (fun b => decide (b.timeout < projected) || paused) (batchesOf s hid) s
  generalize cancelIf (fun b => decide (b.timeout < projected) || paused) (batchesOf s hid) s = sa at *
  rw [← f3] at he
  obtain ⟨txs, h3, _⟩ := poolTxs_ok i1 hid
  simp only [h3] at h
  exact refundIf_lost i1 h he

theorem tag_get (i : Inv sent base s) {k : Nat × Nat × Nat} {id : Nat} (h : (k, id) ∈ tagsIx s.index) :
    ∃ tx, KV.get s.pool (k.1, id) = some tx ∧ tx.tag = (k, id) := by
  have h1 := i.core.perm.mem_iff.1 (List.mem_append_left (tagsB s.batches) h)
  obtain ⟨e, he, h2⟩ := List.mem_map.1 h1
  have hk := i.core.pkey e he
  have hg := KV.get_of_mem i.core.dp (k := e.1) (v := e.2) he
  refine ⟨e.2, ?_, h2⟩
  have e1 : e.2.hid = k.1 := congrArg (·.1.1) h2
  have e2 : e.2.id = id := congrArg (·.2) h2
  rw [← e1, ← e2, ← hk]
  exact hg

theorem filterMap_tags {pool : List ((Nat × Nat) × Tx)} {k : Nat × Nat × Nat} {ids : List Nat}
    (h : ∀ id ∈ ids, ∃ tx, KV.get pool (k.1, id) = some tx ∧ tx.tag = (k, id)) :
    (ids.filterMap (fun id => KV.get pool (k.1, id))).map Tx.tag = ids.map (fun id => (k, id)) := by
  induction ids with
  | nil => rfl
  | cons id ids ih =>
    obtain ⟨tx, h1, h2⟩ := h id List.mem_cons_self
    rw [List.filterMap_cons_some (f := fun id => KV.get pool (k.1, id)) h1, List.map_cons, List.map_cons, h2,
      ih (fun x hx => h x (List.mem_cons_of_mem _ hx))]

theorem flatMap_tags {pool : List ((Nat × Nat) × Tx)} {ix : Index}
    (h : ∀ k id, (k, id) ∈ tagsIx ix → ∃ tx, KV.get pool (k.1, id) = some tx ∧ tx.tag = (k, id)) :
    (ix.flatMap (fun e => e.2.filterMap (fun id => KV.get pool (e.1.1, id)))).map Tx.tag = tagsIx ix := by
  unfold tagsIx at *
  induction ix with
  | nil => rfl
  | cons e ix ih =>
    rw [List.flatMap_cons, List.flatMap_cons, List.map_append, ih (fun k id hm => h k id (by
      rw [List.flatMap_cons]
      exact List.mem_append_right _ hm)), filterMap_tags]
    intro id hid
    exact h e.1 id (by
      rw [List.flatMap_cons]
      exact List.mem_append_left _ (List.mem_map_of_mem hid))

theorem available_tags (i : Inv sent base s) : (available s).map Tx.tag = tagsIx s.index :=
  flatMap_tags (fun _ _ h => tag_get i h)

theorem batched_tags (s : State) : (batched s).map Tx.tag = tagsB s.batches := by
  unfold batched tagsB
  rw [List.map_flatMap]

theorem available_pool (i : Inv sent base s) {tx : Tx} (h : tx ∈ available s) :
    KV.get s.pool (tx.hid, tx.id) = some tx ∧ tx.tag ∈ tagsIx s.index := by
  have ht : tx.tag ∈ tagsIx s.index := by
    rw [← available_tags i]
    exact List.mem_map_of_mem h
  refine ⟨?_, ht⟩
  unfold available at h
  obtain ⟨e, he, h2⟩ := List.mem_flatMap.1 h
  obtain ⟨id, h3, h4⟩ := List.mem_filterMap.1 h2
  obtain ⟨k1, k2⟩ := i.core.key h4
  rw [k1, k2]
  exact h4

theorem available_iff (i : Inv sent base s) {tx : Tx} :
    tx ∈ available s ↔ KV.get s.pool (tx.hid, tx.id) = some tx ∧ tx.tag ∈ tagsIx s.index := by
  refine ⟨available_pool i, ?_⟩
  rintro ⟨h1, h2⟩
  rw [← available_tags i] at h2
  obtain ⟨t, ht, h3⟩ := List.mem_map.1 h2
  have h4 := (available_pool i ht).1
  have e1 : t.hid = tx.hid := congrArg (·.1.1) h3
  have e2 : t.id = tx.id := congrArg (·.2) h3
  rw [e1, e2, h1] at h4
  cases h4
  exact ht

theorem batched_pool (i : Inv sent base s) {tx : Tx} (h : tx ∈ batched s) : KV.get s.pool (tx.hid, tx.id) = some tx := by
  obtain ⟨e, he, h2⟩ := List.mem_flatMap.1 h
  exact KV.get_of_mem i.core.dp (i.core.bmem e he tx h2)

theorem nodup_of_map {α β : Type} {f : α → β} {l : List α} (h : (l.map f).Nodup) : l.Nodup :=
  List.Pairwise.of_map f (fun _ _ hab he => hab (congrArg f he)) h

/-- Tag-permutations of withdrawals that are all in the pool are permutations. -/
theorem perm_of_tags (i : Inv sent base s) {a b : List Tx} (ha : ∀ t ∈ a, KV.get s.pool (t.hid, t.id) = some t)
    (hb : ∀ t ∈ b, KV.get s.pool (t.hid, t.id) = some t) (hn : (b.map Tx.tag).Nodup)
    (hp : (a.map Tx.tag).Perm (b.map Tx.tag)) : a.Perm b := by
  have key : ∀ {x y : List Tx}, (∀ t ∈ x, KV.get s.pool (t.hid, t.id) = some t) →
      (∀ t ∈ y, KV.get s.pool (t.hid, t.id) = some t) → (x.map Tx.tag).Perm (y.map Tx.tag) → ∀ t ∈ x, t ∈ y := by
    intro x y hx hy hxy t ht
    obtain ⟨u, hu, h3⟩ := List.mem_map.1 (hxy.mem_iff.1 (List.mem_map_of_mem ht))
    have h4 := hy u hu
    have e1 : u.hid = t.hid := congrArg (·.1.1) h3
    have e2 : u.id = t.id := congrArg (·.2) h3
    rw [e1, e2, hx t ht] at h4
    cases h4
    exact hu
  rw [List.perm_ext_iff_of_nodup (nodup_of_map (hp.nodup_iff.2 hn)) (nodup_of_map hn)]
  exact fun t => ⟨key ha hb hp t, key hb ha hp.symm t⟩

theorem pool_places (i : Inv sent base s) : (s.pool.map (·.2)).Perm (available s ++ batched s) := by
  refine perm_of_tags i ?_ ?_ ?_ ?_
  · intro t ht
    obtain ⟨e, he, rfl⟩ := List.mem_map.1 ht
    have hk := i.core.pkey e he
    rw [← hk]
    exact KV.get_of_mem i.core.dp he
  · intro t ht
    rcases List.mem_append.1 ht with ht | ht
    · exact (available_pool i ht).1
    · exact batched_pool i ht
  · rw [List.map_append, available_tags i, batched_tags]
    exact i.core.tags_nodup
  · rw [List.map_append, available_tags i, batched_tags, List.map_map]
    exact i.core.perm.symm

theorem poolTxs_available (i : Inv sent base s) (hid : Nat) :
    ∃ txs, poolTxs s hid = some txs ∧ txs.Perm ((available s).filter (fun tx => decide (tx.hid = hid))) := by
  obtain ⟨txs, h1, h2, h3⟩ := poolTxs_ok i hid
  have ht : ((available s).filter (fun tx => decide (tx.hid = hid))).map Tx.tag =
      (tagsIx s.index).filter (fun t => decide (t.1.1 = hid)) := by
    rw [← available_tags i, List.filter_map]
    rfl
  refine ⟨txs, h1, perm_of_tags i (fun t ht => (h3 t ht).1) (fun t ht => (available_pool i (List.mem_filter.1 ht).1).1) ?_ ?_⟩
  · rw [ht]
    exact ((List.nodup_append.1 i.core.tags_nodup).1).filter _
  · rw [ht]
    exact h2

theorem map_inj_on {α β : Type} {f : α → β} : ∀ {l1 l2 : List α}, l1.map f = l2.map f →
    (∀ a ∈ l1, ∀ b ∈ l2, f a = f b → a = b) → l1 = l2
  | [], [], _, _ => rfl
  | [], _ :: _, h, _ => by simp at h
  | _ :: _, [], h, _ => by simp at h
  | a :: l1, b :: l2, h, hi => by
    simp only [List.map_cons, List.cons.injEq] at h
    rw [hi a List.mem_cons_self b List.mem_cons_self h.1,
      map_inj_on h.2 (fun x hx y hy => hi x (List.mem_cons_of_mem _ hx) y (List.mem_cons_of_mem _ hy))]

/-- The candidates come in the order of falling fees. -/
theorem lookup_fees (i : Inv sent base s) {hid token : Nat} {txs : List Tx}
    (hids : txs.map (·.id) = idsOfToken s.index hid token) (hav : ∀ tx ∈ txs, tx.tag ∈ tagsIx s.index) :
    txs.Pairwise (fun a b => b.fee ≤ a.fee) := by
  have hperm := sortBy_perm (fun a b : (Nat × Nat × Nat) × List Nat => keyGe a.1 b.1)
    (s.index.filter (fun e => decide (e.1.1 = hid ∧ e.1.2.1 = token)))
  have hsorted := sortBy_pairwise (le := fun a b : (Nat × Nat × Nat) × List Nat => keyGe a.1 b.1)
    (fun a b c => keyGe_trans a.1 b.1 c.1) (fun a b => keyGe_total a.1 b.1)
    (s.index.filter (fun e => decide (e.1.1 = hid ∧ e.1.2.1 = token)))
  unfold idsOfToken at hids
  generalize sortBy (fun a b : (Nat × Nat × Nat) × List Nat => keyGe a.1 b.1)
    (s.index.filter (fun e => decide (e.1.1 = hid ∧ e.1.2.1 = token))) = S at *
  have hmemS : ∀ e ∈ S, e ∈ s.index ∧ e.1.1 = hid ∧ e.1.2.1 = token := by
    intro e he
    have := hperm.mem_iff.1 he
    simpa using this
  have htags : txs.map Tx.tag = tagsIx S := by
    apply map_inj_on (f := (·.2))
    · rw [List.map_map]
      have : (tagsIx S).map (·.2) = S.flatMap (·.2) := by
        unfold tagsIx
        rw [List.map_flatMap]
        congr 1
        funext e
        rw [List.map_map]
        exact List.map_id _
      rw [this]
      exact hids
    · intro a ha b hb hab
      obtain ⟨t, ht, rfl⟩ := List.mem_map.1 ha
      obtain ⟨e, he, hb2⟩ := List.mem_flatMap.1 hb
      exact i.core.tag_inj (List.mem_append_left _ (hav t ht))
        (List.mem_append_left _ (List.mem_flatMap.2 ⟨e, (hmemS e he).1, hb2⟩)) hab
  have hpw : (tagsIx S).Pairwise (fun a b => b.1.2.2 ≤ a.1.2.2) := by
    unfold tagsIx
    rw [List.pairwise_flatMap]
    refine ⟨?_, ?_⟩
    · intro e he
      rw [List.pairwise_map]
      exact List.pairwise_of_forall (fun _ _ => Nat.le_refl _)
    · refine hsorted.imp_of_mem ?_
      intro a b ha hb hab x hx y hy
      obtain ⟨u, _, rfl⟩ := List.mem_map.1 hx
      obtain ⟨v, _, rfl⟩ := List.mem_map.1 hy
      obtain ⟨_, a1, a2⟩ := hmemS a ha
      obtain ⟨_, b1, b2⟩ := hmemS b hb
      simp only [keyGe, Bool.or_eq_true, Bool.and_eq_true, decide_eq_true_eq] at hab
      simp only
      omega
  rw [← htags, List.pairwise_map] at hpw
  exact hpw

/-! ## Execution -/

theorem cancelEarlier_shrinks {hid token nonce : Nat} {L : List Batch} : ∀ {s s' : State},
    cancelEarlier hid token nonce L s = some s' → ∀ e ∈ s'.batches, e ∈ s.batches := by
  induction L with
  | nil =>
    intro s s' h e he
    cases h
    exact he
  | cons b L ih =>
    intro s s' h e he
    unfold cancelEarlier at h
    split at h
    · split at h
      · cases h
      · rename_i s1 hs1
        exact (cancelBatch_shrinks hs1).batches e (ih h e he)
    · exact ih h e he

theorem cancelEarlier_removes {p0 : List ((Nat × Nat) × Tx)} {hid token nonce : Nat} {L : List Batch} : ∀ {s s' : State},
    Core p0 s.index s.batches → cancelEarlier hid token nonce L s = some s' →
    ∀ b ∈ L, b.hid = hid ∧ b.nonce < nonce ∧ b.token = token → KV.get s'.batches (b.hid, b.nonce, b.token) = none := by
  induction L with
  | nil => exact fun _ _ _ hb => absurd hb List.not_mem_nil
  | cons b L ih =>
    intro s s' c h b' hb' hm
    unfold cancelEarlier at h
    split at h
    · split at h
      · cases h
      · rename_i s1 hs1
        have hsh := cancelEarlier_shrinks h
        unfold cancelBatch at hs1
        split at hs1
        · cases hs1
        · rename_i b1 hb1
          cases hs1
          rcases List.mem_cons.1 hb' with rfl | hb'
          · rw [KV.get_eq_none]
            intro e he heq
            have he1 := hsh e he
            simp only at he1
            have hk := c.bkey_get hb1
            rw [← hk] at he1
            rw [← hm.2.2] at he1
            exact (KV.mem_del.1 he1).2 heq
          · exact ih (s := { s with
              index := b1.txs.foldl (fun ix tx => prependIdx ix (b.hid, token, tx.fee) tx.id) s.index
              batches := KV.del s.batches (b1.hid, b1.nonce, b1.token) }) (c.cancel hb1) h b' hb' hm
    · rename_i hne
      rcases List.mem_cons.1 hb' with rfl | hb'
      · exact absurd hm hne
      · exact ih c h b' hb' hm

theorem executed_spec (i : Inv sent base s) {hid token nonce orch : Nat} {b : Batch}
    (hg : KV.get s.batches (hid, nonce, token) = some b) (h : batchExecuted cfg s hid token nonce orch = some s') :
    s'.finalized = b.txs.map (fun tx => (tx, .executed)) ++ s.finalized ∧ s'.lost = s.lost ∧ s'.links = s.links ∧
    (s.pool.map (·.2)).Perm (b.txs ++ s'.pool.map (·.2)) ∧
    (∀ u d, s'.bank.bal (.user u) d = s.bank.bal (.user u) d + if u = orch ∧ d = ahelios then feesOf b.txs else 0) ∧
    (∀ e ∈ s'.batches, ¬ (e.2.hid = hid ∧ e.2.token = token ∧ e.2.nonce ≤ nonce)) ∧ (∀ e ∈ s'.batches, e ∈ s.batches) := by
  unfold batchExecuted at h
  rw [hg] at h
  dsimp only at h
  have hkey := i.core.bkey_get hg
  have hL := fun b' hb' => (mem_batchesOf (p0 := s.pool) (s := { s with
    pool := b.txs.foldl (fun p tx => KV.del p (tx.hid, tx.id)) s.pool }) (hid := hid) i.core (b := b') hb').1
  obtain ⟨ix', bs', e1, _⟩ := cancelEarlier_core (hid := hid) (token := token) (nonce := b.nonce)
    (L := batchesOf { s with pool := b.txs.foldl (fun p tx => KV.del p (tx.hid, tx.id)) s.pool } hid)
    (s := { s with pool := b.txs.foldl (fun p tx => KV.del p (tx.hid, tx.id)) s.pool }) (p0 := s.pool) i.core
    hL (batchesOf_nodup (p0 := s.pool) (s := { s with
      pool := b.txs.foldl (fun p tx => KV.del p (tx.hid, tx.id)) s.pool }) i.core hid)
  have hrem := cancelEarlier_removes (p0 := s.pool) (s := { s with
    pool := b.txs.foldl (fun p tx => KV.del p (tx.hid, tx.id)) s.pool }) i.core e1
  have hshr := cancelEarlier_shrinks e1
  rw [e1] at h
  dsimp only at h hrem hshr
  obtain ⟨_, hp⟩ := i.core.exec hg
  split at h
  · cases h
  · split at h
    · cases h
    · rename_i bk hbk
      cases h
      refine ⟨rfl, rfl, rfl, hp, ?_, ?_, ?_⟩
      · intro u d
        obtain ⟨_, _, h3⟩ := Bank.send_some hbk
        rw [h3]
        simp
      · intro e he ⟨m1, m2, m3⟩
        simp only at he
        obtain ⟨he1, he2⟩ := KV.mem_del.1 he
        have he0 := hshr e he1
        have hk := i.core.bkey e he0
        rw [Prod.mk.injEq, Prod.mk.injEq] at hkey
        by_cases hn : e.2.nonce = nonce
        · apply he2
          rw [hk, m1, m2, hn, hkey.1, hkey.2.1, hkey.2.2]
        · have hmem : e.2 ∈ batchesOf { s with pool := b.txs.foldl (fun p tx => KV.del p (tx.hid, tx.id)) s.pool } hid :=
            batchesOf_mem (s := { s with pool := b.txs.foldl (fun p tx => KV.del p (tx.hid, tx.id)) s.pool })
              (k := e.1) (KV.get_of_mem i.core.db he0) (by rw [hk]; exact m1)
          have := hrem e.2 hmem ⟨m1, by omega, m2⟩
          rw [KV.get_eq_none] at this
          exact this e he1 hk
      · intro e he
        exact hshr e (KV.mem_del.1 he).1

/-- All users: a deposit credits its receiver and nobody else. -/
theorem deposit_bal {hid addr amount : Nat} {receiver : Option Nat} {evs : List Ev}
    (h : deposit cfg s hid addr amount receiver = some (s', evs)) :
    ∃ d, evs.getLast? = some (.deposited d amount) ∧ s'.pool = s.pool ∧ s'.finalized = s.finalized ∧
      ∀ u e, s'.bank.bal (.user u) e = s.bank.bal (.user u) e +
        if receiver = some u ∧ cfg.blocked u = false ∧ e = d then amount else 0 := by
  have key : ∀ (bk b2 : Bank) (d : Denom) (dst : Acct), (bk.mint d amount).send .module dst d amount = some b2 →
      (∀ u, .user u = dst ↔ receiver = some u ∧ cfg.blocked u = false) →
      ∀ u e, b2.bal (.user u) e = bk.bal (.user u) e +
        if receiver = some u ∧ cfg.blocked u = false ∧ e = d then amount else 0 := by
    intro bk b2 d dst hb hdst u e
    obtain ⟨_, _, h3⟩ := Bank.send_some hb
    rw [h3, Bank.mint_bal]
    have := hdst u
    simp only [reduceCtorEq, false_and, if_false, Nat.add_zero, Nat.sub_zero, this, and_assoc]
  unfold deposit at h
  cases hl : linkByAddr s.links hid addr with
  | some l =>
    rw [hl] at h
    dsimp only at h
    split at h
    · cases h
    · split at h
      · cases h
      · rename_i b2 hb2
        cases h
        refine ⟨l.denom, rfl, rfl, rfl, key _ _ _ _ hb2 ?_⟩
        exact (by
          intro u
          cases receiver with
          | none => simp
          | some r =>
            cases hr : cfg.blocked r with
            | true =>
              simp only [hr, if_true, reduceCtorEq, Option.some.injEq, false_iff]
              rintro ⟨rfl, h⟩
              rw [hr] at h
              cases h
            | false =>
              simp only [hr, Bool.false_eq_true, if_false, Acct.user.injEq, Option.some.injEq]
              constructor
              · rintro rfl
                exact ⟨rfl, hr⟩
              · rintro ⟨rfl, _⟩
                rfl)
  | none =>
    rw [hl] at h
    dsimp only at h
    split at h
    · cases h
    · split at h
      · cases h
      · rename_i b2 hb2
        cases h
        refine ⟨.bridged hid addr, rfl, rfl, rfl, ?_⟩
        intro u e
        rw [key _ _ _ _ hb2 (by
          intro u
          cases receiver with
          | none => simp
          | some r =>
            cases hr : cfg.blocked r with
            | true =>
              simp only [hr, if_true, reduceCtorEq, Option.some.injEq, false_iff]
              rintro ⟨rfl, h⟩
              rw [hr] at h
              cases h
            | false =>
              simp only [hr, Bool.false_eq_true, if_false, Acct.user.injEq, Option.some.injEq]
              constructor
              · rintro rfl
                exact ⟨rfl, hr⟩
              · rintro ⟨rfl, _⟩
                rfl) u e]
        simp [createLink, Bank.mint_bal]

/-! ## What timeouts leave alone -/

theorem cancelIf_keeps {due : Batch → Bool} {e : (Nat × Nat × Nat) × Batch} (hnd : due e.2 = false) {L : List Batch} :
    ∀ {s : State}, Inv sent base s → (∀ b ∈ L, ∀ b', KV.get s.batches (b.hid, b.nonce, b.token) = some b' → b' = b) →
    e ∈ s.batches → e ∈ (cancelIf due L s).batches := by
  induction L with
  | nil => exact fun _ _ h => h
  | cons b L ih =>
    intro s i hL he
    unfold cancelIf
    by_cases hd : due b = true
    · rw [if_pos hd]
      cases hc : cancelBatch s b.hid b.token b.nonce with
      | none =>
        exact ih i (fun x hx => hL x (List.mem_cons_of_mem _ hx)) he
      | some s1 =>
        simp only [Option.getD_some]
        have i1 := (cancelBatch_inv i hc).1
        unfold cancelBatch at hc
        split at hc
        · cases hc
        · rename_i b1 hb1
          have hb1' := hL b List.mem_cons_self b1 hb1
          cases hc
          refine ih i1 ?_ ?_
          · intro x hx b' hb'
            simp only [KV.get_del] at hb'
            split at hb'
            · cases hb'
            · exact hL x (List.mem_cons_of_mem _ hx) b' hb'
          · refine KV.mem_del.2 ⟨he, ?_⟩
            intro hk
            rw [hb1'] at hk
            have := KV.get_of_mem i.core.db he
            rw [hk] at this
            have := hL b List.mem_cons_self _ this
            rw [this, hd] at hnd
            cases hnd
    · rw [if_neg hd]
      exact ih i (fun x hx => hL x (List.mem_cons_of_mem _ hx)) he

theorem refundIf_keeps {hid : Nat} {due : Tx → Bool} {e : (Nat × Nat) × Tx} (hnd : ¬ (e.2.hid = hid ∧ due e.2 = true))
    {L : List Tx} : ∀ {s s' : State}, Inv sent base s →
    (∀ tx ∈ L, ∀ t, KV.get s.pool (hid, tx.id) = some t → t = tx) →
    refundIf cfg hid due L s = some s' → e ∈ s.pool → e ∈ s'.pool ∧ s'.batches = s.batches := by
  induction L with
  | nil =>
    intro s s' _ _ h he
    cases h
    exact ⟨he, rfl⟩
  | cons tx L ih =>
    intro s s' i hL h he
    unfold refundIf at h
    split at h
    · rename_i hdue
      obtain ⟨s1, ok, h1, i1, _⟩ := refund_inv cfg i hid tx.id tx.sender
      rw [h1] at h
      rcases refund_cases cfg i hid tx.id tx.sender h1 with ⟨rfl, _⟩ | ⟨tx', ix, c1, c2, c3, _, _, _, c7⟩
      · exact ih i1 (fun x hx => hL x (List.mem_cons_of_mem _ hx)) h he
      · obtain ⟨f1, _, f3, _⟩ := payRefund_frame cfg { s with index := ix, pool := KV.del s.pool (tx'.hid, tx'.id) } tx'
        rw [← c7] at f1 f3
        simp only at f1 f3
        have hkeep : e ∈ s1.pool := by
          rw [f1]
          refine KV.mem_del.2 ⟨he, ?_⟩
          intro hk
          have h5 := KV.get_of_mem i.core.dp he
          rw [hk, c1] at h5
          cases h5
          rw [c2, c3] at c1
          have h6 := hL tx List.mem_cons_self _ c1
          apply hnd
          refine ⟨c2, ?_⟩
          rw [h6]
          rw [Bool.and_eq_true] at hdue
          exact hdue.1
        obtain ⟨g1, g2⟩ := ih i1 (by
          intro x hx t ht
          rw [f1, KV.get_del] at ht
          split at ht
          · cases ht
          · exact hL x (List.mem_cons_of_mem _ hx) t ht) h hkeep
        exact ⟨g1, g2.trans f3⟩
    · exact ih i (fun x hx => hL x (List.mem_cons_of_mem _ hx)) h he

theorem refundIf_batches {hid : Nat} {due : Tx → Bool} {L : List Tx} : ∀ {s s' : State}, Inv sent base s →
    refundIf cfg hid due L s = some s' → s'.batches = s.batches := by
  induction L with
  | nil =>
    intro s s' _ h
    cases h
    rfl
  | cons tx L ih =>
    intro s s' i h
    unfold refundIf at h
    split at h
    · obtain ⟨s1, ok, h1, i1, _⟩ := refund_inv cfg i hid tx.id tx.sender
      rw [h1] at h
      refine (ih i1 h).trans ?_
      rcases refund_cases cfg i hid tx.id tx.sender h1 with ⟨rfl, _⟩ | ⟨tx', ix, c1, c2, c3, _, _, _, c7⟩
      · rfl
      · obtain ⟨_, _, f3, _⟩ := payRefund_frame cfg { s with index := ix, pool := KV.del s.pool (tx'.hid, tx'.id) } tx'
        rw [← c7] at f3
        exact f3
    · exact ih i h

theorem timeouts_keeps (i : Inv sent base s) {hid projected : Nat} {paused : Bool}
    (h : timeouts cfg s hid projected paused = some s') :
    (∀ e ∈ s.pool, ¬ (e.2.hid = hid ∧ (decide (e.2.timeout < projected) || paused) = true) → e ∈ s'.pool) ∧
    (∀ e ∈ s.batches, ¬ (e.2.hid = hid ∧ (decide (e.2.timeout < projected) || paused) = true) → e ∈ s'.batches) := by
  unfold timeouts at h
  obtain ⟨i1, _⟩ := cancelIf_inv (due := fun b => decide (b.timeout < projected) || paused) (L := batchesOf s hid) i
  obtain ⟨f1, f2, f3⟩ := cancelIf_frame (fun b => decide (b.timeout < projected) || paused) (batchesOf s hid) s
  have hk := fun (e : (Nat × Nat × Nat) × Batch) (hnd : (decide (e.2.timeout < projected) || paused) = false) =>
    cancelIf_keeps (due := fun b => decide (b.timeout < projected) || paused) (e := e) hnd (L := batchesOf s hid) i
      (fun b hb b' hb' => by
        rw [(mem_batchesOf i.core hb).1] at hb'
        exact (Option.some.inj hb').symm)
  have hk2 : ∀ e ∈ s.batches, e.2.hid ≠ hid →
      e ∈ (cancelIf (fun b => decide (b.timeout < projected) || paused) (batchesOf s hid) s).batches := by
    intro e he hne
    have : ∀ (L : List Batch), (∀ b ∈ L, b.hid = hid) → ∀ {s : State}, e ∈ s.batches →
        Inv sent base s → e ∈ (cancelIf (fun b => decide (b.timeout < projected) || paused) L s).batches := by
      intro L hL
      induction L with
      | nil => exact fun h _ => h
      | cons b L ih =>
        intro s he i
        unfold cancelIf
        refine ih (fun x hx => hL x (List.mem_cons_of_mem _ hx)) ?_ ?_
        · split
          · cases hc : cancelBatch s b.hid b.token b.nonce with
            | none => exact he
            | some s1 =>
              simp only [Option.getD_some]
              unfold cancelBatch at hc
              split at hc
              · cases hc
              · rename_i b1 hb1
                cases hc
                refine KV.mem_del.2 ⟨he, ?_⟩
                rw [← i.core.bkey_get hb1, i.core.bkey e he, hL b List.mem_cons_self]
                intro h
                exact hne (congrArg (·.1) h)
          · exact he
        · split
          · cases hc : cancelBatch s b.hid b.token b.nonce with
            | none => exact i
            | some s1 => exact (cancelBatch_inv i hc).1
          · exact i
    exact this (batchesOf s hid) (fun b hb => (mem_batchesOf i.core hb).2) he i
  generalize cancelIf (fun b => decide (b.timeout < projected) || paused) (batchesOf s hid) s = sa at *
  obtain ⟨txs, h3, _, h5⟩ := poolTxs_ok i1 hid
  simp only [h3] at h
  refine ⟨?_, ?_⟩
  · intro e he hnd
    rw [← f1] at he
    refine (refundIf_keeps (due := fun tx => decide (tx.timeout < projected) || paused) hnd i1 ?_ h he).1
    intro tx ht t hg
    obtain ⟨g1, _, g3⟩ := h5 tx ht
    rw [← g3, g1] at hg
    exact (Option.some.inj hg).symm
  · intro e he hnd
    rw [refundIf_batches i1 h]
    by_cases hh : e.2.hid = hid
    · refine hk e ?_ he
      rw [Bool.eq_false_iff]
      exact fun hx => hnd ⟨hh, hx⟩
    · exact hk2 e he hh

end Hyperion
