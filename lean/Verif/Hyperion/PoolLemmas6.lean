import Verif.Hyperion.PoolLemmas5
/-!
# What the operations leave alone, and what they complete
-/
namespace Hyperion
open StableSort

variable {sent : List Tx} {base : Denom → Nat} {s s' : State}

/-- Counters stay, stores only lose entries. -/
structure Shrinks (s s' : State) : Prop where
  lastBatch : s'.lastBatch = s.lastBatch
  lastTx : s'.lastTx = s.lastTx
  pool : ∀ e ∈ s'.pool, e ∈ s.pool
  batches : ∀ e ∈ s'.batches, e ∈ s.batches

theorem Shrinks.refl (s : State) : Shrinks s s := ⟨rfl, rfl, fun _ h => h, fun _ h => h⟩

theorem Shrinks.trans {a b c : State} (h1 : Shrinks a b) (h2 : Shrinks b c) : Shrinks a c :=
  ⟨h2.lastBatch.trans h1.lastBatch, h2.lastTx.trans h1.lastTx, fun e h => h1.pool e (h2.pool e h),
    fun e h => h1.batches e (h2.batches e h)⟩

theorem payRefund_frame (cfg : Cfg) (s : State) (tx : Tx) :
    (payRefund cfg s tx).1.pool = s.pool ∧ (payRefund cfg s tx).1.index = s.index ∧
    (payRefund cfg s tx).1.batches = s.batches ∧ (payRefund cfg s tx).1.lastBatch = s.lastBatch ∧
    (payRefund cfg s tx).1.lastTx = s.lastTx ∧ (payRefund cfg s tx).1.data = s.data := by
  unfold payRefund
  split
  · exact ⟨rfl, rfl, rfl, rfl, rfl, rfl⟩
  · dsimp only
    split
    · exact ⟨rfl, rfl, rfl, rfl, rfl, rfl⟩
    · split
      · exact ⟨rfl, rfl, rfl, rfl, rfl, rfl⟩
      · split
        · exact ⟨rfl, rfl, rfl, rfl, rfl, rfl⟩
        · exact ⟨rfl, rfl, rfl, rfl, rfl, rfl⟩

/-- Either nothing happens, or one available withdrawal of the caller leaves the pool and the index. -/
theorem refund_cases (cfg : Cfg) (i : Inv sent base s) (hid id sender : Nat) {s' : State} {ok : Bool}
    (h : refund cfg s hid id sender = some (s', ok)) :
    (s' = s ∧ ok = false) ∨
    ∃ tx ix, KV.get s.pool (tx.hid, tx.id) = some tx ∧ tx.hid = hid ∧ tx.id = id ∧ tx.sender = sender ∧
      tx.tag ∈ tagsIx s.index ∧ removeIdx s.index (tx.hid, tx.token, tx.fee) tx.id = some ix ∧
      (s', ok) = payRefund cfg { s with index := ix, pool := KV.del s.pool (tx.hid, tx.id) } tx := by
  unfold refund at h
  cases hg : KV.get s.pool (hid, id) with
  | none =>
    rw [hg] at h
    cases h
    exact .inl ⟨rfl, rfl⟩
  | some tx =>
    rw [hg] at h
    simp only at h
    split at h
    · cases h
      exact .inl ⟨rfl, rfl⟩
    · rename_i hs
      split at h
      · cases h
      · split at h
        · split at h
          · cases h
            exact .inl ⟨rfl, rfl⟩
          · rename_i ix hr
            obtain ⟨k1, k2⟩ := i.core.key hg
            right
            subst k1
            subst k2
            refine ⟨tx, ix, hg, rfl, rfl, by simpa using hs, ?_, hr, ?_⟩
            · exact (removeIdx_some i.core.dix hr).2.mem_iff.2 List.mem_cons_self
            · exact (Option.some.inj h).symm
        · cases h
          exact .inl ⟨rfl, rfl⟩

theorem refund_shrinks (cfg : Cfg) (i : Inv sent base s) {hid id sender : Nat} {s' : State} {ok : Bool}
    (h : refund cfg s hid id sender = some (s', ok)) :
    Shrinks s s' ∧ ∀ t ∈ tagsIx s'.index, t ∈ tagsIx s.index := by
  rcases refund_cases cfg i hid id sender h with ⟨rfl, _⟩ | ⟨tx, ix, h1, _, _, _, _, h6, h7⟩
  · exact ⟨Shrinks.refl _, fun _ h => h⟩
  · obtain ⟨f1, f2, f3, f4, f5, _⟩ := payRefund_frame cfg { s with index := ix, pool := KV.del s.pool (tx.hid, tx.id) } tx
    rw [← h7] at f1 f2 f3 f4 f5
    simp only at f1 f2 f3 f4 f5
    refine ⟨⟨f4, f5, ?_, ?_⟩, ?_⟩
    · intro e he
      rw [f1] at he
      exact (KV.mem_del.1 he).1
    · intro e he
      rw [f3] at he
      exact he
    · intro t ht
      rw [f2] at ht
      exact (removeIdx_some i.core.dix h6).2.mem_iff.2 (List.mem_cons_of_mem _ ht)

theorem refund_removes (cfg : Cfg) (i : Inv sent base s) {tx : Tx} (hg : KV.get s.pool (tx.hid, tx.id) = some tx)
    (ht : tx.tag ∈ tagsIx s.index) {s' : State} {ok : Bool} (h : refund cfg s tx.hid tx.id tx.sender = some (s', ok)) :
    s'.pool = KV.del s.pool (tx.hid, tx.id) ∧ s'.batches = s.batches ∧
      (tagsIx s.index).Perm (tx.tag :: tagsIx s'.index) := by
  obtain ⟨txs, h1, h2, h3⟩ := poolTxs_ok i tx.hid
  obtain ⟨ix, hr⟩ := removeIdx_ok i.core.dix ht
  have hany : txs.any (fun p => decide (p.id = tx.id)) = true := by
    have : tx.tag ∈ txs.map Tx.tag := h2.mem_iff.2 (List.mem_filter.2 ⟨ht, by simp [Tx.tag]⟩)
    obtain ⟨t, ht1, ht2⟩ := List.mem_map.1 this
    rw [List.any_eq_true]
    exact ⟨t, ht1, by simpa [Tx.tag] using congrArg Prod.snd ht2⟩
  unfold refund at h
  rw [hg] at h
  simp only [ne_eq, not_true_eq_false, if_false] at h
  rw [h1] at h
  have hr' : removeIdx s.index (tx.hid, tx.token, tx.fee) tx.id = some ix := hr
  simp only [hany, if_true, hr'] at h
  obtain ⟨f1, f2, f3, _⟩ := payRefund_frame cfg { s with index := ix, pool := KV.del s.pool (tx.hid, tx.id) } tx
  rw [Option.some.inj h] at f1 f2 f3
  simp only at f1 f2 f3
  refine ⟨f1, f3, ?_⟩
  rw [f2]
  exact (removeIdx_some i.core.dix hr).2

theorem cancelBatch_shrinks {hid token nonce : Nat} (h : cancelBatch s hid token nonce = some s') : Shrinks s s' := by
  unfold cancelBatch at h
  cases hg : KV.get s.batches (hid, nonce, token) with
  | none => rw [hg] at h; cases h
  | some b =>
    rw [hg] at h
    cases h
    exact ⟨rfl, rfl, fun _ h => h, fun e he => (KV.mem_del.1 he).1⟩

theorem cancelIf_spec {due : Batch → Bool} {L : List Batch} : ∀ {s : State}, Inv sent base s →
    Shrinks s (cancelIf due L s) ∧ ∀ b ∈ L, due b = true → KV.get (cancelIf due L s).batches (b.hid, b.nonce, b.token) = none := by
  induction L with
  | nil => exact fun _ => ⟨Shrinks.refl _, by simp⟩
  | cons b L ih =>
    intro s i
    unfold cancelIf
    by_cases hd : due b = true
    · rw [if_pos hd]
      cases hc : cancelBatch s b.hid b.token b.nonce with
      | none =>
        simp only [Option.getD_none]
        obtain ⟨h1, h2⟩ := ih i
        refine ⟨h1, ?_⟩
        intro b' hb' hd'
        rcases List.mem_cons.1 hb' with rfl | hb'
        · rw [KV.get_eq_none]
          intro e he heq
          unfold cancelBatch at hc
          split at hc
          · rename_i hn
            exact KV.get_eq_none.1 hn e (h1.batches e he) heq
          · cases hc
        · exact h2 b' hb' hd'
      | some s1 =>
        simp only [Option.getD_some]
        have i1 := (cancelBatch_inv i hc).1
        obtain ⟨h1, h2⟩ := ih i1
        refine ⟨(cancelBatch_shrinks hc).trans h1, ?_⟩
        intro b' hb' hd'
        rcases List.mem_cons.1 hb' with rfl | hb'
        · rw [KV.get_eq_none]
          intro e he heq
          have he1 := h1.batches e he
          unfold cancelBatch at hc
          split at hc
          · cases hc
          · rename_i b1 hb1
            cases hc
            simp only at he1
            have := i.core.bkey_get hb1
            rw [← this] at he1
            exact (KV.mem_del.1 he1).2 heq
        · exact h2 b' hb' hd'
    · rw [if_neg hd]
      obtain ⟨h1, h2⟩ := ih i
      refine ⟨h1, ?_⟩
      intro b' hb' hd'
      rcases List.mem_cons.1 hb' with rfl | hb'
      · exact absurd hd' hd
      · exact h2 b' hb' hd'

/-- An available withdrawal is in no batch. -/
theorem not_in_batch (i : Inv sent base s) {tx : Tx} (ht : tx.tag ∈ tagsIx s.index) (hid : Nat) :
    (batchesOf s hid).any (fun b => b.txs.any (fun t => decide (t.id = tx.id))) = false := by
  rw [Bool.eq_false_iff]
  intro h
  obtain ⟨b, hb, h2⟩ := List.any_eq_true.1 h
  obtain ⟨t, h3, h4⟩ := List.any_eq_true.1 h2
  have h4 : t.id = tx.id := by simpa using h4
  have hg := (mem_batchesOf i.core hb).1
  have h5 : t.tag ∈ tagsB s.batches := List.mem_flatMap.2 ⟨_, KV.mem_of_get hg, List.mem_map_of_mem h3⟩
  have := i.core.tag_inj (List.mem_append_right _ h5) (List.mem_append_left _ ht) h4
  rw [this] at h5
  exact (List.nodup_append.1 i.core.tags_nodup).2.2 _ ht _ h5 rfl

theorem refundIf_spec {cfg : Cfg} {hid : Nat} {due : Tx → Bool} {L : List Tx} : ∀ {s s' : State}, Inv sent base s →
    (∀ tx ∈ L, tx.hid = hid) →
    (∀ tx ∈ L, KV.get s.pool (tx.hid, tx.id) = some tx → tx.tag ∈ tagsIx s.index) →
    refundIf cfg hid due L s = some s' →
    Shrinks s s' ∧ (∀ t ∈ tagsIx s'.index, t ∈ tagsIx s.index) ∧
      ∀ tx ∈ L, due tx = true → ((tx.hid, tx.id), tx) ∉ s'.pool := by
  induction L with
  | nil =>
    intro s s' i _ _ h
    cases h
    exact ⟨Shrinks.refl _, fun _ h => h, by simp⟩
  | cons tx L ih =>
    intro s s' i hh hav h
    have hhid := hh tx List.mem_cons_self
    unfold refundIf at h
    by_cases hg : KV.get s.pool (tx.hid, tx.id) = some tx
    · have htag := hav tx List.mem_cons_self hg
      rw [not_in_batch i htag hid] at h
      by_cases hd : due tx = true
      · simp only [hd, Bool.not_false, Bool.and_self, if_true] at h
        obtain ⟨s1, ok, h1, i1, _⟩ := refund_inv cfg i hid tx.id tx.sender
        rw [h1] at h
        simp only at h
        obtain ⟨hs1, hs2⟩ := refund_shrinks cfg i h1
        rw [← hhid] at h1
        obtain ⟨r1, r2, r3⟩ := refund_removes cfg i hg htag h1
        obtain ⟨g1, g2, g3⟩ := ih i1 (fun t ht => hh t (List.mem_cons_of_mem _ ht)) (by
          intro t ht hgt
          rw [r1, KV.get_del] at hgt
          split at hgt
          · cases hgt
          · rename_i hne
            rcases List.mem_cons.1 (r3.mem_iff.1 (hav t (List.mem_cons_of_mem _ ht) hgt)) with h5 | h5
            · exfalso
              apply hne
              have e1 : t.hid = tx.hid := congrArg (·.1.1) h5
              have e2 : t.id = tx.id := congrArg (·.2) h5
              rw [e1, e2]
            · exact h5) h
        refine ⟨hs1.trans g1, fun t ht => hs2 t (g2 t ht), ?_⟩
        intro t ht hdt
        rcases List.mem_cons.1 ht with rfl | ht
        · intro hmem
          have := g1.pool _ hmem
          rw [r1] at this
          exact (KV.mem_del.1 this).2 rfl
        · exact g3 t ht hdt
      · simp only [hd, Bool.false_and, Bool.false_eq_true, if_false] at h
        obtain ⟨g1, g2, g3⟩ := ih i (fun t ht => hh t (List.mem_cons_of_mem _ ht))
          (fun t ht => hav t (List.mem_cons_of_mem _ ht)) h
        refine ⟨g1, g2, ?_⟩
        intro t ht hdt
        rcases List.mem_cons.1 ht with rfl | ht
        · exact absurd hdt hd
        · exact g3 t ht hdt
    · have hrest : ∀ {s1 : State}, Inv sent base s1 → Shrinks s s1 → (∀ t ∈ tagsIx s1.index, t ∈ tagsIx s.index) →
          (∀ t ∈ L, KV.get s1.pool (t.hid, t.id) = some t → t.tag ∈ tagsIx s1.index) →
          refundIf cfg hid due L s1 = some s' →
          Shrinks s s' ∧ (∀ t ∈ tagsIx s'.index, t ∈ tagsIx s.index) ∧
          ∀ t ∈ tx :: L, due t = true → ((t.hid, t.id), t) ∉ s'.pool := by
        intro s1 i1 hs1 hs2 hav1 h1
        obtain ⟨g1, g2, g3⟩ := ih i1 (fun t ht => hh t (List.mem_cons_of_mem _ ht)) hav1 h1
        refine ⟨hs1.trans g1, fun t ht => hs2 t (g2 t ht), ?_⟩
        intro t ht hdt
        rcases List.mem_cons.1 ht with rfl | ht
        · intro hmem
          exact hg (KV.get_of_mem i.core.dp (hs1.pool _ (g1.pool _ hmem)))
        · exact g3 t ht hdt
      split at h
      · obtain ⟨s1, ok, h1, i1, _⟩ := refund_inv cfg i hid tx.id tx.sender
        rw [h1] at h
        simp only at h
        obtain ⟨hs1, hs2⟩ := refund_shrinks cfg i h1
        refine hrest i1 hs1 hs2 ?_ h
        intro t ht hgt
        rcases refund_cases cfg i hid tx.id tx.sender h1 with ⟨rfl, _⟩ | ⟨tx', ix, c1, c2, c3, c4, c5, c6, c7⟩
        · exact hav t (List.mem_cons_of_mem _ ht) hgt
        · obtain ⟨f1, f2, _⟩ := payRefund_frame cfg { s with index := ix, pool := KV.del s.pool (tx'.hid, tx'.id) } tx'
          rw [← c7] at f1 f2
          simp only at f1 f2
          rw [f1, KV.get_del] at hgt
          split at hgt
          · cases hgt
          · rename_i hne
            rw [f2]
            rcases List.mem_cons.1 ((removeIdx_some i.core.dix c6).2.mem_iff.1 (hav t (List.mem_cons_of_mem _ ht) hgt)) with h5 | h5
            · exfalso
              apply hne
              have e1 : t.hid = tx'.hid := congrArg (·.1.1) h5
              have e2 : t.id = tx'.id := congrArg (·.2) h5
              rw [e1, e2]
            · exact h5
      · exact hrest i (Shrinks.refl _) (fun _ h => h) (fun t ht => hav t (List.mem_cons_of_mem _ ht)) h

theorem timeouts_spec (cfg : Cfg) (i : Inv sent base s) {hid projected : Nat} {paused : Bool}
    (h : timeouts cfg s hid projected paused = some s') :
    Shrinks s s' ∧
    (∀ e ∈ s'.batches, e.2.hid = hid → (decide (e.2.timeout < projected) || paused) = false) ∧
    (∀ tx, KV.get s'.pool (tx.hid, tx.id) = some tx → tx.tag ∈ tagsIx s'.index → tx.hid = hid →
      (decide (tx.timeout < projected) || paused) = false) := by
  unfold timeouts at h
  obtain ⟨i1, _⟩ := cancelIf_inv (due := fun b => decide (b.timeout < projected) || paused) (L := batchesOf s hid) i
  obtain ⟨c1, c2⟩ := cancelIf_spec (due := fun b => decide (b.timeout < projected) || paused) (L := batchesOf s hid) i
  generalize cancelIf (fun b => decide (b.timeout < projected) || paused) (batchesOf s hid) s = s1 at *
  obtain ⟨txs, h3, h4, h5⟩ := poolTxs_ok i1 hid
  simp only [h3] at h
  obtain ⟨g1, g2, g3⟩ := refundIf_spec i1 (fun tx ht => (h5 tx ht).2.2) (fun tx ht _ => (h5 tx ht).2.1) h
  refine ⟨c1.trans g1, ?_, ?_⟩
  · intro e he hhid
    rw [Bool.eq_false_iff]
    intro hd
    have he1 := g1.batches e he
    have he0 := c1.batches e he1
    have hk := i.core.bkey e he0
    have hg : KV.get s.batches (e.2.hid, e.2.nonce, e.2.token) = some e.2 := by
      rw [← hk]
      exact KV.get_of_mem i.core.db he0
    have := c2 e.2 (batchesOf_mem hg hhid) hd
    rw [KV.get_eq_none] at this
    exact this e he1 hk
  · intro tx hg ht hhid
    rw [Bool.eq_false_iff]
    intro hd
    have htag := g2 _ ht
    have : tx.tag ∈ txs.map Tx.tag := h4.mem_iff.2 (List.mem_filter.2 ⟨htag, decide_eq_true hhid⟩)
    obtain ⟨t, ht1, ht2⟩ := List.mem_map.1 this
    have hmem := g1.pool _ (KV.mem_of_get hg)
    have hteq : t = tx := by
      have := i1.core.inj (KV.mem_of_get (h5 t ht1).1) hmem (by simpa [Tx.tag] using congrArg Prod.snd ht2)
      exact (Prod.mk.inj this).2
    subst hteq
    exact g3 t ht1 hd (KV.mem_of_get hg)

theorem cleanPool_shrinks {cfg : Cfg} {hid : Nat} {L : List Tx} : ∀ {s s' : State}, Inv sent base s →
    cleanPool cfg hid L s = some s' → Shrinks s s' ∧ ∀ t ∈ tagsIx s'.index, t ∈ tagsIx s.index := by
  induction L with
  | nil =>
    intro s s' _ h
    cases h
    exact ⟨Shrinks.refl _, fun _ h => h⟩
  | cons tx L ih =>
    intro s s' i h
    unfold cleanPool at h
    obtain ⟨s1, ok, h1, i1, _⟩ := refund_inv cfg i hid tx.id tx.sender
    rw [h1] at h
    obtain ⟨g1, g2⟩ := refund_shrinks cfg i h1
    obtain ⟨g3, g4⟩ := ih i1 h
    exact ⟨g1.trans g3, fun t ht => g2 t (g4 t ht)⟩

/-- After a reset of a chain nothing of that chain is pending. -/
theorem cleanAll_spec (cfg : Cfg) (i : Inv sent base s) {hid : Nat} (h : cleanAll cfg s hid = some s') :
    Shrinks s s' ∧ ∀ e ∈ s'.pool, e.2.hid ≠ hid := by
  unfold cleanAll at h
  obtain ⟨i1, _⟩ := cancelIf_inv (due := fun _ => true) (L := batchesOf s hid) i
  obtain ⟨c1, c2⟩ := cancelIf_spec (due := fun _ => true) (L := batchesOf s hid) i
  generalize cancelIf (fun _ => true) (batchesOf s hid) s = s1 at *
  obtain ⟨txs, h3, h4, h5⟩ := poolTxs_ok i1 hid
  simp only [h3] at h
  obtain ⟨s2, hr, i2, _⟩ := refundIf_inv (cfg := cfg) (hid := hid) (due := fun _ => true) (L := txs) i1
  obtain ⟨g1, g2, g3⟩ := refundIf_spec i1 (fun tx ht => (h5 tx ht).2.2) (fun tx ht _ => (h5 tx ht).2.1) hr
  rw [hr] at h
  simp only at h
  obtain ⟨txs2, h6, _⟩ := poolTxs_ok i2 hid
  simp only [h6] at h
  obtain ⟨k1, _⟩ := cleanPool_shrinks i2 h
  refine ⟨c1.trans (g1.trans k1), ?_⟩
  intro e he hhid
  have he2 := k1.pool e he
  have he1 := g1.pool e he2
  have hkey := i1.core.pkey e he1
  have htag : e.2.tag ∈ tagsIx s1.index ++ tagsB s1.batches :=
    i1.core.perm.mem_iff.2 (List.mem_map_of_mem (f := fun e => e.2.tag) he1)
  rcases List.mem_append.1 htag with ht | ht
  · have : e.2.tag ∈ txs.map Tx.tag := h4.mem_iff.2 (List.mem_filter.2 ⟨ht, decide_eq_true hhid⟩)
    obtain ⟨t, ht1, ht2⟩ := List.mem_map.1 this
    have := i1.core.inj (KV.mem_of_get (h5 t ht1).1) he1 (by simpa [Tx.tag] using congrArg Prod.snd ht2)
    apply g3 t ht1 rfl
    rw [this]
    exact he2
  · obtain ⟨b, hb, ht2⟩ := List.mem_flatMap.1 ht
    obtain ⟨t, ht3, ht4⟩ := List.mem_map.1 ht2
    have hb0 := c1.batches b hb
    have hkb := i.core.bkey b hb0
    have h7 := (i1.core.btok b hb t ht3).1
    have h8 : t.hid = e.2.hid := congrArg (·.1.1) ht4
    have hg : KV.get s.batches (b.2.hid, b.2.nonce, b.2.token) = some b.2 := by
      rw [← hkb]
      exact KV.get_of_mem i.core.db hb0
    have := c2 b.2 (batchesOf_mem hg (by show b.2.hid = hid; rw [← h7, h8, hhid])) rfl
    rw [KV.get_eq_none] at this
    exact this b hb hkb

theorem batchExecuted_frame (cfg : Cfg) (i : Inv sent base s) {hid token nonce orch : Nat}
    (h : batchExecuted cfg s hid token nonce orch = some s') : s'.lastBatch = s.lastBatch ∧ s'.lastTx = s.lastTx := by
  unfold batchExecuted at h
  cases hg : KV.get s.batches (hid, nonce, token) with
  | none => rw [hg] at h; cases h; exact ⟨rfl, rfl⟩
  | some b =>
    rw [hg] at h
    dsimp only at h
    obtain ⟨ix', bs', e1, _⟩ := cancelEarlier_core (hid := hid) (token := token) (nonce := b.nonce)
      (L := batchesOf { s with pool := b.txs.foldl (fun p tx => KV.del p (tx.hid, tx.id)) s.pool } hid)
      (s := { s with pool := b.txs.foldl (fun p tx => KV.del p (tx.hid, tx.id)) s.pool }) (p0 := s.pool) i.core
      (fun b' hb' => (mem_batchesOf (p0 := s.pool) (s := { s with
        pool := b.txs.foldl (fun p tx => KV.del p (tx.hid, tx.id)) s.pool }) i.core hb').1)
      (batchesOf_nodup (p0 := s.pool) (s := { s with
        pool := b.txs.foldl (fun p tx => KV.del p (tx.hid, tx.id)) s.pool }) i.core hid)
    rw [e1] at h
    dsimp only at h
    split at h
    · cases h
    · split at h
      · cases h
      · cases h
        exact ⟨rfl, rfl⟩

/-! ## Nonces -/

/-- The nonces handed out by a step continue the counter. -/
theorem step_nonces (cfg : Cfg) (i : Inv sent base s) (o : Op) (hid : Nat) :
    noncesIn hid (step cfg s o).2.evs = List.range' (s.lastBatch hid + 1) ((step cfg s o).1.lastBatch hid - s.lastBatch hid) ∧
    s.lastBatch hid ≤ (step cfg s o).1.lastBatch hid := by
  have same : ∀ (s1 : State) (out : Out), s1.lastBatch = s.lastBatch → noncesIn hid out.evs = [] →
      noncesIn hid out.evs = List.range' (s.lastBatch hid + 1) (s1.lastBatch hid - s.lastBatch hid) ∧
      s.lastBatch hid ≤ s1.lastBatch hid := by
    intro s1 out h1 h2
    rw [h1, h2, Nat.sub_self]
    exact ⟨rfl, Nat.le_refl _⟩
  have bump : ∀ (h : Nat) (evs : List Ev), noncesIn hid evs = (if h = hid then [s.lastBatch h + 1] else []) →
      noncesIn hid evs = List.range' (s.lastBatch hid + 1)
        ((if hid = h then s.lastBatch h + 1 else s.lastBatch hid) - s.lastBatch hid) ∧
      s.lastBatch hid ≤ (if hid = h then s.lastBatch h + 1 else s.lastBatch hid) := by
    intro h evs he
    rw [he]
    by_cases hh : h = hid
    · subst hh
      simp only [if_true]
      refine ⟨?_, by omega⟩
      have : s.lastBatch h + 1 - s.lastBatch h = 1 := by omega
      rw [this]
      rfl
    · rw [if_neg hh, if_neg (fun h' => hh h'.symm), Nat.sub_self]
      exact ⟨rfl, Nat.le_refl _⟩
  cases o with
  | send sender hid' dest d amount feeDenom fee timeout =>
    simp only [step]
    cases h : addToPool s sender hid' dest d amount feeDenom fee timeout with
    | none => exact same _ _ rfl rfl
    | some r =>
      obtain ⟨s', tx⟩ := r
      refine same s' _ ?_ rfl
      unfold addToPool at h
      split at h
      · cases h
      · split at h
        · cases h
        · split at h
          · cases h
          · dsimp only at h
            generalize (if isCosmos s.links d = true then _ else s.links) = links' at h
            split at h
            · cases h
            · split at h
              · cases h
              · split at h
                · cases h
                · cases h
                  rfl
  | cancelSend sender hid' id =>
    simp only [step]
    obtain ⟨s', ok, h1, h2, _⟩ := refund_inv cfg i hid' id sender
    have := (refund_shrinks cfg i h1).1.lastBatch
    rw [h1]
    cases ok
    · exact same _ _ rfl rfl
    · exact same _ _ this rfl
  | requestBatch hid' d timeout =>
    simp only [step]
    cases hl : linkByDenom s.links hid' d with
    | none => exact same _ _ rfl rfl
    | some l =>
      simp only
      cases h : buildBatch cfg s hid' l.addr timeout with
      | none => exact same _ _ rfl rfl
      | some r =>
        unfold buildBatch at h
        split at h
        · cases h
        · dsimp only at h
          split at h
          · cases h
          · cases h
            exact bump hid' _ (by by_cases hh : hid' = hid <;> simp [Out.evs, noncesIn, storeNewBatch, hh])
  | requestBatchIds hid' d timeout ids =>
    simp only [step]
    cases hl : linkByDenom s.links hid' d with
    | none => exact same _ _ rfl rfl
    | some l =>
      simp only
      cases h : buildBatchIds cfg s hid' l.addr timeout ids with
      | none => exact same _ _ rfl rfl
      | some r =>
        unfold buildBatchIds at h
        split at h
        · cases h
        · split at h
          · cases h
          · split at h
            · cases h
            · cases h
              exact bump hid' _ (by by_cases hh : hid' = hid <;> simp [Out.evs, noncesIn, storeNewBatch, hh])
  | deposit hid' addr amount receiver =>
    simp only [step]
    cases h : deposit cfg s hid' addr amount receiver with
    | none => exact same _ _ rfl rfl
    | some r =>
      obtain ⟨s', evs⟩ := r
      unfold deposit at h
      cases hl : linkByAddr s.links hid' addr with
      | some l =>
        rw [hl] at h
        dsimp only at h
        split at h
        · cases h
        · split at h
          · cases h
          · cases h
            exact same _ _ rfl rfl
      | none =>
        rw [hl] at h
        dsimp only at h
        split at h
        · cases h
        · split at h
          · cases h
          · cases h
            exact same _ _ rfl rfl
  | executed hid' token nonce orch =>
    simp only [step]
    cases h : batchExecuted cfg s hid' token nonce orch with
    | none => exact same _ _ rfl rfl
    | some s' => exact same _ _ (batchExecuted_frame cfg i h).1 rfl
  | timeouts hid' projected paused =>
    simp only [step]
    cases h : timeouts cfg s hid' projected paused with
    | none => exact same _ _ rfl rfl
    | some s' => exact same _ _ (timeouts_spec cfg i h).1.lastBatch rfl
  | cleanAll hid' =>
    simp only [step]
    cases h : cleanAll cfg s hid' with
    | none => exact same _ _ rfl rfl
    | some s' => exact same _ _ (cleanAll_spec cfg i h).1.lastBatch rfl
  | link hid' addr d =>
    simp only [step]
    split
    · exact same _ _ rfl rfl
    · exact same _ _ rfl rfl
  | transfer src dst d n =>
    simp only [step]
    split
    · exact same _ _ rfl rfl
    · exact same _ _ rfl rfl
  | dataRequest origin hid' contract fee =>
    simp only [step]
    cases h : dataRequest s origin hid' contract fee with
    | none => exact same _ _ rfl rfl
    | some s' =>
      unfold dataRequest at h
      split at h
      · cases h
      · cases h
        exact bump hid' _ (by by_cases hh : hid' = hid <;> simp [Out.evs, noncesIn, hh])
  | dataExecute hid' nonce contract votes =>
    refine same _ _ ?_ rfl
    simp only [step, dataExecute]
    split <;> rfl
  | dataTimeout hid' nonce contract =>
    refine same _ _ ?_ rfl
    simp only [step, dataTimeout]
    split <;> rfl

theorem run_nonces (cfg : Cfg) (ops : List Op) (hid : Nat) : ∀ {sent : List Tx} {base : Denom → Nat} {s : State},
    Inv sent base s →
    noncesIn hid (events (run cfg s ops).2) =
      List.range' (s.lastBatch hid + 1) ((run cfg s ops).1.lastBatch hid - s.lastBatch hid) ∧
    s.lastBatch hid ≤ (run cfg s ops).1.lastBatch hid := by
  induction ops with
  | nil =>
    intro sent base s i
    simp [run, events, noncesIn]
  | cons o os ih =>
    intro sent base s i
    obtain ⟨h1, h2⟩ := step_nonces cfg i o hid
    obtain ⟨h3, h4⟩ := ih (step_inv cfg i o)
    simp only [run]
    rw [events_cons]
    have : noncesIn hid ((step cfg s o).2.evs ++ events (run cfg (step cfg s o).1 os).2) =
        noncesIn hid (step cfg s o).2.evs ++ noncesIn hid (events (run cfg (step cfg s o).1 os).2) := by simp [noncesIn]
    rw [this, h1, h3]
    refine ⟨?_, by omega⟩
    have e1 : (run cfg (step cfg s o).1 os).1.lastBatch hid - s.lastBatch hid =
        ((step cfg s o).1.lastBatch hid - s.lastBatch hid) +
          ((run cfg (step cfg s o).1 os).1.lastBatch hid - (step cfg s o).1.lastBatch hid) := by omega
    rw [e1, ← List.range'_append_1]
    congr 2
    omega

end Hyperion
