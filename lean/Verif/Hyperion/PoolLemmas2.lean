import Verif.Hyperion.PoolLemmas
/-!
# The operations on the withdrawal stores keep them consistent
-/
namespace Hyperion
open StableSort

variable {pool : List ((Nat × Nat) × Tx)} {ix : Index} {bs : List ((Nat × Nat × Nat) × Batch)}

theorem Core.add (c : Core pool ix bs) {tx : Tx} (hf : ∀ e ∈ pool, e.2.id ≠ tx.id) :
    Core (KV.set pool (tx.hid, tx.id) tx) (appendIdx ix (tx.hid, tx.token, tx.fee) tx.id) bs := by
  have hn : KV.get pool (tx.hid, tx.id) = none := by
    rw [KV.get_eq_none]
    intro e he h
    rw [c.pkey e he] at h
    exact hf e he (Prod.mk.inj h).2
  have hset : KV.set pool (tx.hid, tx.id) tx = ((tx.hid, tx.id), tx) :: pool := by
    unfold KV.set
    rw [KV.del_of_get_none hn]
  refine
    { dp := KV.distinct_set c.dp _ _
      dix := KV.distinct_set c.dix _ _
      db := c.db
      pkey := ?_
      bkey := c.bkey
      btok := c.btok
      bmem := ?_
      perm := ?_
      nodup := ?_ }
  · intro e he
    rw [hset] at he
    rcases List.mem_cons.1 he with rfl | he
    · rfl
    · exact c.pkey e he
  · intro e he t ht
    rw [hset]
    exact List.mem_cons_of_mem _ (c.bmem e he t ht)
  · rw [hset]
    refine ((appendIdx_tags c.dix _ _).append_right _).trans ?_
    exact c.perm.cons _
  · rw [hset, List.map_cons, List.nodup_cons]
    refine ⟨?_, c.nodup⟩
    intro h
    obtain ⟨e, he, h'⟩ := List.mem_map.1 h
    exact hf e he h'

theorem pool_perm_del (c : Core pool ix bs) {hid id : Nat} {tx : Tx} (h : KV.get pool (hid, id) = some tx) :
    (pool.map (·.2)).Perm (tx :: (KV.del pool (hid, id)).map (·.2)) :=
  (KV.perm_of_get c.dp h).map (·.2)

theorem Core.remove (c : Core pool ix bs) {tx : Tx} {ix' : Index} (hg : KV.get pool (tx.hid, tx.id) = some tx)
    (hr : removeIdx ix (tx.hid, tx.token, tx.fee) tx.id = some ix') : Core (KV.del pool (tx.hid, tx.id)) ix' bs := by
  obtain ⟨hd, hp⟩ := removeIdx_some c.dix hr
  have hpp := pool_perm_del c hg
  have htp : (tagsP pool).Perm (tx.tag :: tagsP (KV.del pool (tx.hid, tx.id))) := by
    have := hpp.map Tx.tag
    simpa [tagsP, Function.comp_def] using this
  have hperm : (tx.tag :: (tagsIx ix' ++ tagsB bs)).Perm (tx.tag :: tagsP (KV.del pool (tx.hid, tx.id))) :=
    ((hp.append_right (tagsB bs)).symm.trans c.perm).trans htp
  refine
    { dp := KV.distinct_del c.dp _
      dix := hd
      db := c.db
      pkey := fun e he => c.pkey e (KV.mem_del.1 he).1
      bkey := c.bkey
      btok := c.btok
      bmem := ?_
      perm := hperm.cons_inv
      nodup := ?_ }
  · intro e he t ht
    rw [KV.mem_del]
    refine ⟨c.bmem e he t ht, ?_⟩
    intro heq
    have hb : t.tag ∈ tagsB bs := List.mem_flatMap.2 ⟨e, he, List.mem_map_of_mem ht⟩
    have hx : tx.tag ∈ tagsIx ix := hp.mem_iff.2 List.mem_cons_self
    have : t.tag = tx.tag :=
      c.tag_inj (List.mem_append_right _ hb) (List.mem_append_left _ hx) (Prod.mk.inj heq).2
    rw [this] at hb
    exact (List.nodup_append.1 c.tags_nodup).2.2 _ hx _ hb rfl
  · have := hpp.map (·.id)
    simp only [List.map_map, Function.comp_def, List.map_cons] at this
    have h2 := (this.nodup_iff).1 c.nodup
    exact (List.nodup_cons.1 h2).2

theorem Core.batch (c : Core pool ix bs) {ix' : Index} {b : Batch} (hd : KV.Distinct ix')
    (hp : (tagsIx ix).Perm (b.txs.map Tx.tag ++ tagsIx ix'))
    (hsel : ∀ tx ∈ b.txs, KV.get pool (tx.hid, tx.id) = some tx ∧ tx.hid = b.hid ∧ tx.token = b.token)
    (hf : KV.get bs (b.hid, b.nonce, b.token) = none) :
    Core pool ix' (KV.set bs (b.hid, b.nonce, b.token) b) := by
  have hset : KV.set bs (b.hid, b.nonce, b.token) b = ((b.hid, b.nonce, b.token), b) :: bs := by
    unfold KV.set
    rw [KV.del_of_get_none hf]
  refine
    { dp := c.dp
      dix := hd
      db := KV.distinct_set c.db _ _
      pkey := c.pkey
      bkey := ?_
      btok := ?_
      bmem := ?_
      perm := ?_
      nodup := c.nodup }
  · intro e he
    rw [hset] at he
    rcases List.mem_cons.1 he with rfl | he
    · rfl
    · exact c.bkey e he
  · intro e he
    rw [hset] at he
    rcases List.mem_cons.1 he with rfl | he
    · exact fun tx ht => (hsel tx ht).2
    · exact c.btok e he
  · intro e he
    rw [hset] at he
    rcases List.mem_cons.1 he with rfl | he
    · exact fun tx ht => KV.mem_of_get (hsel tx ht).1
    · exact c.bmem e he
  · rw [hset]
    refine List.Perm.trans ?_ c.perm
    have : tagsB (((b.hid, b.nonce, b.token), b) :: bs) = b.txs.map Tx.tag ++ tagsB bs := by simp [tagsB]
    rw [this]
    refine List.Perm.trans ?_ (hp.symm.append_right _)
    rw [List.append_assoc]
    refine (List.perm_append_comm_assoc _ _ _).trans ?_
    exact .refl _

theorem tagsB_del (c : Core pool ix bs) {k : Nat × Nat × Nat} {b : Batch} (hg : KV.get bs k = some b) :
    (tagsB bs).Perm (b.txs.map Tx.tag ++ tagsB (KV.del bs k)) :=
  flatMap_of_get c.db hg _

theorem Core.bkey_get (c : Core pool ix bs) {k : Nat × Nat × Nat} {b : Batch} (hg : KV.get bs k = some b) :
    k = (b.hid, b.nonce, b.token) := c.bkey _ (KV.mem_of_get hg)

theorem Core.cancel (c : Core pool ix bs) {hid token nonce : Nat} {b : Batch}
    (hg : KV.get bs (hid, nonce, token) = some b) :
    Core pool (b.txs.foldl (fun ix tx => prependIdx ix (hid, token, tx.fee) tx.id) ix)
      (KV.del bs (b.hid, b.nonce, b.token)) := by
  have hk := c.bkey_get hg
  rw [← hk]
  simp only [Prod.mk.injEq] at hk
  obtain ⟨h1, h2, h3⟩ := hk
  obtain ⟨hd, hp⟩ := foldl_prepend c.dix hid token b.txs
  have hmap : b.txs.map (fun tx => ((hid, token, tx.fee), tx.id)) = b.txs.map Tx.tag := by
    apply List.map_congr_left
    intro tx ht
    have := c.btok _ (KV.mem_of_get hg) tx ht
    simp only at this
    simp [Tx.tag, this.1, this.2, h1, h3]
  rw [hmap] at hp
  refine
    { dp := c.dp
      dix := hd
      db := KV.distinct_del c.db _
      pkey := c.pkey
      bkey := fun e he => c.bkey e (KV.mem_del.1 he).1
      btok := fun e he => c.btok e (KV.mem_del.1 he).1
      bmem := fun e he => c.bmem e (KV.mem_del.1 he).1
      perm := ?_
      nodup := c.nodup }
  refine (hp.append_right _).trans ?_
  refine List.Perm.trans ?_ c.perm
  refine List.Perm.trans ?_ ((tagsB_del c hg).symm.append_left _)
  rw [List.append_assoc]
  exact List.perm_append_comm_assoc _ _ _

theorem foldl_del_perm {pool : List ((Nat × Nat) × Tx)} (hd : KV.Distinct pool) {txs : List Tx}
    (hn : (txs.map (·.id)).Nodup) (hg : ∀ tx ∈ txs, KV.get pool (tx.hid, tx.id) = some tx) :
    KV.Distinct (txs.foldl (fun p tx => KV.del p (tx.hid, tx.id)) pool) ∧
    pool.Perm (txs.map (fun tx => ((tx.hid, tx.id), tx)) ++ txs.foldl (fun p tx => KV.del p (tx.hid, tx.id)) pool) := by
  induction txs generalizing pool with
  | nil => exact ⟨hd, .refl _⟩
  | cons tx txs ih =>
    rw [List.map_cons, List.nodup_cons] at hn
    have h1 := KV.perm_of_get hd (hg tx List.mem_cons_self)
    obtain ⟨h2, h3⟩ := ih (KV.distinct_del hd (tx.hid, tx.id)) hn.2 (by
      intro t ht
      rw [KV.get_del, if_neg]
      · exact hg t (List.mem_cons_of_mem _ ht)
      · intro heq
        apply hn.1
        rw [← (Prod.mk.inj heq).2]
        exact List.mem_map_of_mem (f := (·.id)) ht)
    refine ⟨h2, h1.trans ?_⟩
    simp only [List.map_cons, List.cons_append, List.foldl_cons]
    exact h3.cons _

theorem Core.batch_ids (c : Core pool ix bs) {k : Nat × Nat × Nat} {b : Batch} (hg : KV.get bs k = some b) :
    (b.txs.map (·.id)).Nodup ∧ ∀ tx ∈ b.txs, KV.get pool (tx.hid, tx.id) = some tx := by
  have hget : ∀ tx ∈ b.txs, KV.get pool (tx.hid, tx.id) = some tx := fun tx ht =>
    KV.get_of_mem c.dp (c.bmem _ (KV.mem_of_get hg) tx ht)
  refine ⟨?_, hget⟩
  have hn : (b.txs.map Tx.tag).Nodup :=
    (List.nodup_append.1 (((tagsB_del c hg).nodup_iff).1 (List.nodup_append.1 c.tags_nodup).2.1)).1
  rw [List.nodup_iff_pairwise_ne, List.pairwise_map] at hn ⊢
  rw [List.pairwise_iff_forall_sublist] at hn ⊢
  intro t t' hs heq
  apply hn hs
  have ht : t ∈ b.txs := hs.subset (by simp)
  have ht' : t' ∈ b.txs := hs.subset (by simp)
  have := c.inj (KV.mem_of_get (hget t ht)) (KV.mem_of_get (hget t' ht')) heq
  rw [(Prod.mk.inj this).2]

theorem Core.exec (c : Core pool ix bs) {k : Nat × Nat × Nat} {b : Batch} (hg : KV.get bs k = some b) :
    Core (b.txs.foldl (fun p tx => KV.del p (tx.hid, tx.id)) pool) ix (KV.del bs (b.hid, b.nonce, b.token)) ∧
    (pool.map (·.2)).Perm (b.txs ++ (b.txs.foldl (fun p tx => KV.del p (tx.hid, tx.id)) pool).map (·.2)) := by
  obtain ⟨hn, hget⟩ := c.batch_ids hg
  obtain ⟨hd, hp⟩ := foldl_del_perm c.dp hn hget
  have hk := c.bkey_get hg
  rw [← hk]
  have hpm : (pool.map (·.2)).Perm
      (b.txs ++ (b.txs.foldl (fun p tx => KV.del p (tx.hid, tx.id)) pool).map (·.2)) := by
    have := hp.map (·.2)
    simpa [Function.comp_def] using this
  refine ⟨?_, hpm⟩
  have hnd := (((hpm.map (·.id)).nodup_iff).1 (by simpa [Function.comp_def] using c.nodup))
  rw [List.map_append] at hnd
  have hsub : ∀ e ∈ b.txs.foldl (fun p tx => KV.del p (tx.hid, tx.id)) pool, e ∈ pool := fun e he =>
    hp.mem_iff.2 (List.mem_append_right _ he)
  refine
    { dp := hd
      dix := c.dix
      db := KV.distinct_del c.db _
      pkey := fun e he => c.pkey e (hsub e he)
      bkey := fun e he => c.bkey e (KV.mem_del.1 he).1
      btok := fun e he => c.btok e (KV.mem_del.1 he).1
      bmem := ?_
      perm := ?_
      nodup := ?_ }
  · intro e he t ht
    have hmem := c.bmem e (KV.mem_del.1 he).1 t ht
    rcases List.mem_append.1 (hp.mem_iff.1 hmem) with h | h
    · exfalso
      obtain ⟨t', ht', heq⟩ := List.mem_map.1 h
      have heq := (Prod.mk.inj heq).2
      subst heq
      have h1 : t'.tag ∈ b.txs.map Tx.tag := List.mem_map_of_mem ht'
      have h2 : t'.tag ∈ tagsB (KV.del bs k) := List.mem_flatMap.2 ⟨e, he, List.mem_map_of_mem ht⟩
      exact (List.nodup_append.1 (((tagsB_del c hg).nodup_iff).1 (List.nodup_append.1 c.tags_nodup).2.1)).2.2 _ h1 _ h2 rfl
    · exact h
  · have h1 : (tagsP pool).Perm (b.txs.map Tx.tag ++ tagsP (b.txs.foldl (fun p tx => KV.del p (tx.hid, tx.id)) pool)) := by
      have := hp.map (fun e => e.2.tag)
      simpa [tagsP, Function.comp_def] using this
    have h2 := (c.perm.symm.trans ((tagsB_del c hg).append_left (tagsIx ix))).symm.trans h1
    have h3 : (b.txs.map Tx.tag ++ (tagsIx ix ++ tagsB (KV.del bs k))).Perm
        (b.txs.map Tx.tag ++ tagsP (b.txs.foldl (fun p tx => KV.del p (tx.hid, tx.id)) pool)) :=
      (List.perm_append_comm_assoc _ _ _).trans h2
    exact (List.perm_append_left_iff _).1 h3
  · simpa [Function.comp_def] using (List.nodup_append.1 hnd).2.1

/-! ## Picking withdrawals -/

theorem pick_spec {hid token max : Nat} {ids : List Nat} {txs : List Tx} (hl : lookupAll pool hid ids = some txs) :
    ∀ {ix : Index} {sel : List Tx}, KV.Distinct ix → sel.length < max → ids.Nodup →
      (∀ tx ∈ txs, tx.hid = hid ∧ tx.token = token ∧ tx.tag ∈ tagsIx ix) → txs.map (·.id) = ids →
      ∃ ix', pick pool hid token max ids ix sel = (ix', sel ++ txs.take (max - sel.length)) ∧ KV.Distinct ix' ∧
        (tagsIx ix).Perm ((txs.take (max - sel.length)).map Tx.tag ++ tagsIx ix') := by
  induction ids generalizing txs with
  | nil =>
    intro ix sel hd hlt _ _ _
    cases hl
    exact ⟨ix, by simp [pick], hd, by simp⟩
  | cons id ids ih =>
    intro ix sel hd hlt hnd hmem hmap
    unfold lookupAll at hl
    cases hg : KV.get pool (hid, id) with
    | none => rw [hg] at hl; cases hl
    | some tx =>
      rw [hg] at hl
      simp only [Option.map_eq_some_iff] at hl
      obtain ⟨txs', hl', rfl⟩ := hl
      obtain ⟨h1, h2, h3⟩ := hmem tx List.mem_cons_self
      simp only [List.map_cons, List.cons.injEq] at hmap
      rw [List.nodup_cons] at hnd
      have htag : tx.tag = ((hid, token, tx.fee), id) := by simp [Tx.tag, h1, h2, hmap.1]
      rw [htag] at h3
      obtain ⟨ix1, hr⟩ := removeIdx_ok hd h3
      obtain ⟨hd1, hp1⟩ := removeIdx_some hd hr
      unfold pick
      rw [hg]
      simp only [hr]
      split
      · rename_i hlen
        refine ⟨ix1, ?_, hd1, ?_⟩
        · have : max - sel.length = 1 := by
            rw [List.length_append, List.length_singleton] at hlen
            omega
          rw [this]
          simp
        · have : max - sel.length = 1 := by
            rw [List.length_append, List.length_singleton] at hlen
            omega
          rw [this]
          simp only [List.take_succ_cons, List.take_zero, List.map_cons, List.map_nil, List.cons_append, List.nil_append]
          rw [htag]
          exact hp1
      · rename_i hlen
        rw [List.length_append, List.length_singleton] at hlen
        obtain ⟨ix', e1, e2, e3⟩ := ih hl' (ix := ix1) (sel := sel ++ [tx]) hd1 (by simp; omega) hnd.2 (by
          intro t ht
          obtain ⟨q1, q2, q3⟩ := hmem t (List.mem_cons_of_mem _ ht)
          refine ⟨q1, q2, ?_⟩
          rcases List.mem_cons.1 (hp1.mem_iff.1 q3) with q | q
          · exfalso
            apply hnd.1
            rw [← hmap.2]
            have : t.id = id := by
              have := congrArg Prod.snd q
              simpa [Tx.tag] using this
            rw [← this]
            exact List.mem_map_of_mem (f := (·.id)) ht
          · exact q) hmap.2
        have hm : max - sel.length = (max - (sel ++ [tx]).length) + 1 := by
          rw [List.length_append, List.length_singleton]
          omega
        refine ⟨ix', ?_, e2, ?_⟩
        · rw [e1, hm]
          simp
        · rw [hm]
          simp only [List.take_succ_cons, List.map_cons, List.cons_append]
          rw [htag]
          exact hp1.trans (e3.cons _)

theorem pickIds_spec {hid token max : Nat} (hkey : ∀ id tx, KV.get pool (hid, id) = some tx → tx.hid = hid ∧ tx.id = id)
    {ids : List Nat} :
    ∀ {ix ix' : Index} {sel sel' : List Tx}, KV.Distinct ix → sel.length < max →
      (∀ tx, KV.get pool (hid, tx.id) = some tx → (((hid, token, tx.fee), tx.id) ∈ tagsIx ix → tx.token = token)) →
      pickIds pool hid token max ids ix sel = some (ix', sel') →
      ∃ taken, sel' = sel ++ taken ∧ sel'.length ≤ max ∧ KV.Distinct ix' ∧
        (tagsIx ix).Perm (taken.map Tx.tag ++ tagsIx ix') ∧ taken.map (·.id) = ids.take taken.length ∧
        (sel'.length < max → taken.length = ids.length) ∧
        ∀ tx ∈ taken, KV.get pool (tx.hid, tx.id) = some tx ∧ tx.hid = hid ∧ tx.token = token := by
  induction ids with
  | nil =>
    intro ix ix' sel sel' hd hlt _ h
    cases h
    exact ⟨[], by simp, by omega, hd, .refl _, rfl, fun _ => rfl, by simp⟩
  | cons id ids ih =>
    intro ix ix' sel sel' hd hlt htok h
    unfold pickIds at h
    cases hg : KV.get pool (hid, id) with
    | none => rw [hg] at h; cases h
    | some tx =>
      rw [hg] at h
      simp only at h
      obtain ⟨k1, k2⟩ := hkey id tx hg
      split at h
      · rename_i hhas
        have hin := (idxHas_iff hd).1 hhas
        obtain ⟨ix1, hr⟩ := removeIdx_ok hd hin
        obtain ⟨hd1, hp1⟩ := removeIdx_some hd hr
        have ht : tx.token = token := htok tx (by rw [k2]; exact hg) (by rw [k2]; exact hin)
        have htag : tx.tag = ((hid, token, tx.fee), id) := by simp [Tx.tag, k1, k2, ht]
        have hself : KV.get pool (tx.hid, tx.id) = some tx ∧ tx.hid = hid ∧ tx.token = token :=
          ⟨by rw [k1, k2]; exact hg, k1, ht⟩
        rw [hr] at h
        simp only at h
        split at h
        · rename_i hlen
          cases h
          refine ⟨[tx], rfl, by omega, hd1, ?_, by simp [k2], by omega, ?_⟩
          · simp only [List.map_cons, List.map_nil, List.cons_append, List.nil_append, htag]
            exact hp1
          · intro t h'
            rw [List.mem_singleton.1 h']
            exact hself
        · rename_i hlen
          rw [List.length_append, List.length_singleton] at hlen
          obtain ⟨taken, e1, e2, e3, e4, e5, e6, e7⟩ := ih hd1 (by simp; omega) (by
            intro t h1 h2
            exact htok t h1 (hp1.mem_iff.2 (List.mem_cons_of_mem _ h2))) h
          refine ⟨tx :: taken, ?_, e2, e3, ?_, ?_, ?_, ?_⟩
          · rw [e1]
            simp
          · simp only [List.map_cons, List.cons_append, htag]
            exact hp1.trans (e4.cons _)
          · simp [e5, k2]
          · intro hl
            simp [e6 hl]
          · intro t h'
            rcases List.mem_cons.1 h' with rfl | h'
            · exact hself
            · exact e7 t h'
      · cases h

end Hyperion
