import Verif.Hyperion.Pool
/-!
# Lemmas about the withdrawal stores

The index, the batches and the pool are compared through *tags*: chain, token, fee and id of a withdrawal.
-/
namespace Hyperion
open StableSort

/-- Shorthand for the type of the index. -/
abbrev Index := List ((Nat × Nat × Nat) × List Nat)

/-- Tag of a withdrawal. -/
def Tx.tag (tx : Tx) : (Nat × Nat × Nat) × Nat := ((tx.hid, tx.token, tx.fee), tx.id)

/-- Tags listed by the index. -/
def tagsIx (ix : Index) : List ((Nat × Nat × Nat) × Nat) := ix.flatMap (fun e => e.2.map (fun id => (e.1, id)))

/-- Tags of the batched withdrawals. -/
def tagsB (bs : List ((Nat × Nat × Nat) × Batch)) : List ((Nat × Nat × Nat) × Nat) :=
  bs.flatMap (fun e => e.2.txs.map Tx.tag)

/-- Tags of the pool. -/
def tagsP (pool : List ((Nat × Nat) × Tx)) : List ((Nat × Nat × Nat) × Nat) := pool.map (fun e => e.2.tag)

/-! ## Stores -/

theorem flatMap_of_get {κ α β : Type} [DecidableEq κ] {m : List (κ × α)} (hd : KV.Distinct m) {k : κ} {v : α}
    (h : KV.get m k = some v) (f : κ × α → List β) : (m.flatMap f).Perm (f (k, v) ++ (KV.del m k).flatMap f) := by
  have := (KV.perm_of_get hd h).flatMap_right f
  simpa using this

theorem flatMap_set {κ α β : Type} [DecidableEq κ] (m : List (κ × α)) (k : κ) (v : α)
    (f : κ × α → List β) : (KV.set m k v).flatMap f = f (k, v) ++ (KV.del m k).flatMap f := by
  simp [KV.set]

theorem nodup_map_inj {α β : Type} {f : α → β} {l : List α} (h : (l.map f).Nodup) {a b : α} (ha : a ∈ l) (hb : b ∈ l)
    (hab : f a = f b) : a = b := by
  induction l with
  | nil => cases ha
  | cons x l ih =>
    rw [List.map_cons, List.nodup_cons] at h
    rcases List.mem_cons.1 ha with ha' | ha'
    · rcases List.mem_cons.1 hb with hb' | hb'
      · rw [ha', hb']
      · exact absurd (by rw [← ha', hab]; exact List.mem_map_of_mem hb') h.1
    · rcases List.mem_cons.1 hb with hb' | hb'
      · exact absurd (by rw [← hb', ← hab]; exact List.mem_map_of_mem ha') h.1
      · exact ih h.2 ha' hb'

/-! ## The index -/

theorem appendIdx_tags {ix : Index} (hd : KV.Distinct ix) (k : Nat × Nat × Nat) (id : Nat) :
    (tagsIx (appendIdx ix k id)).Perm ((k, id) :: tagsIx ix) := by
  unfold appendIdx tagsIx
  rw [flatMap_set]
  cases h : KV.get ix k with
  | none =>
    rw [KV.del_of_get_none h]
    simp
  | some ids =>
    have := flatMap_of_get hd h (fun e => e.2.map (fun id => (e.1, id)))
    simp only [Option.getD_some, List.map_append, List.map_cons, List.map_nil, List.append_assoc]
    refine List.Perm.trans ?_ (this.symm.cons _)
    exact List.perm_middle

theorem prependIdx_tags {ix : Index} (hd : KV.Distinct ix) (k : Nat × Nat × Nat) (id : Nat) :
    (tagsIx (prependIdx ix k id)).Perm ((k, id) :: tagsIx ix) := by
  unfold prependIdx tagsIx
  rw [flatMap_set]
  cases h : KV.get ix k with
  | none =>
    rw [KV.del_of_get_none h]
    simp
  | some ids =>
    have := flatMap_of_get hd h (fun e => e.2.map (fun id => (e.1, id)))
    simp only [Option.getD_some, List.map_cons, List.cons_append]
    exact this.symm.cons _

theorem mem_tagsIx {ix : Index} {t : (Nat × Nat × Nat) × Nat} :
    t ∈ tagsIx ix ↔ ∃ e ∈ ix, e.1 = t.1 ∧ t.2 ∈ e.2 := by
  unfold tagsIx
  simp only [List.mem_flatMap, List.mem_map]
  constructor
  · rintro ⟨e, he, id, hid, rfl⟩
    exact ⟨e, he, rfl, hid⟩
  · rintro ⟨e, he, h1, h2⟩
    exact ⟨e, he, t.2, h2, by rw [h1]⟩

theorem mem_tagsIx_get {ix : Index} (hd : KV.Distinct ix) {k : Nat × Nat × Nat} {id : Nat} :
    (k, id) ∈ tagsIx ix ↔ ∃ ids, KV.get ix k = some ids ∧ id ∈ ids := by
  rw [mem_tagsIx]
  constructor
  · rintro ⟨e, he, h1, h2⟩
    refine ⟨e.2, KV.get_of_mem hd ?_, h2⟩
    simp only at h1
    rw [← h1]
    exact he
  · rintro ⟨ids, h1, h2⟩
    exact ⟨(k, ids), KV.mem_of_get h1, rfl, h2⟩

theorem removeIdx_some {ix ix' : Index} (hd : KV.Distinct ix) {k : Nat × Nat × Nat} {id : Nat}
    (h : removeIdx ix k id = some ix') : KV.Distinct ix' ∧ (tagsIx ix).Perm ((k, id) :: tagsIx ix') := by
  unfold removeIdx at h
  cases hg : KV.get ix k with
  | none => rw [hg] at h; cases h
  | some ids =>
    rw [hg] at h
    simp only at h
    split at h
    · rename_i hc
      have hc : id ∈ ids := by simpa using hc
      have hp := flatMap_of_get hd hg (fun e => e.2.map (fun id => (e.1, id)))
      have hids : (ids.map (fun id => (k, id))).Perm ((k, id) :: (ids.erase id).map (fun id => (k, id))) :=
        (List.perm_cons_erase hc).map _
      split at h
      · rename_i hem
        cases h
        refine ⟨KV.distinct_del hd k, ?_⟩
        refine hp.trans ?_
        have : ids.erase id = [] := by simpa using hem
        rw [this] at hids
        exact (hids.append_right _)
      · cases h
        refine ⟨KV.distinct_set hd _ _, ?_⟩
        refine hp.trans ?_
        unfold tagsIx
        rw [flatMap_set]
        exact (hids.append_right _)
    · cases h

theorem removeIdx_ok {ix : Index} (hd : KV.Distinct ix) {k : Nat × Nat × Nat} {id : Nat}
    (h : (k, id) ∈ tagsIx ix) : ∃ ix', removeIdx ix k id = some ix' := by
  obtain ⟨ids, h1, h2⟩ := (mem_tagsIx_get hd).1 h
  unfold removeIdx
  rw [h1]
  simp only [List.contains_eq_mem, h2, decide_true, if_true]
  split
  · exact ⟨_, rfl⟩
  · exact ⟨_, rfl⟩

theorem idxHas_iff {ix : Index} (hd : KV.Distinct ix) {k : Nat × Nat × Nat} {id : Nat} :
    idxHas ix k id = true ↔ (k, id) ∈ tagsIx ix := by
  rw [mem_tagsIx_get hd]
  unfold idxHas
  cases KV.get ix k with
  | none => simp
  | some ids => simp

theorem foldl_prepend {ix : Index} (hd : KV.Distinct ix) (hid token : Nat) (txs : List Tx) :
    KV.Distinct (txs.foldl (fun ix tx => prependIdx ix (hid, token, tx.fee) tx.id) ix) ∧
    (tagsIx (txs.foldl (fun ix tx => prependIdx ix (hid, token, tx.fee) tx.id) ix)).Perm
      (txs.map (fun tx => ((hid, token, tx.fee), tx.id)) ++ tagsIx ix) := by
  induction txs generalizing ix with
  | nil => exact ⟨hd, .refl _⟩
  | cons tx txs ih =>
    have hd' : KV.Distinct (prependIdx ix (hid, token, tx.fee) tx.id) := KV.distinct_set hd _ _
    obtain ⟨h1, h2⟩ := ih hd'
    refine ⟨h1, h2.trans ?_⟩
    refine ((prependIdx_tags hd _ _).append_left _).trans ?_
    simp only [List.map_cons, List.cons_append]
    exact List.perm_middle

theorem keyGe_trans (a b c : Nat × Nat × Nat) (h1 : keyGe a b = true) (h2 : keyGe b c = true) : keyGe a c = true := by
  obtain ⟨a1, a2, a3⟩ := a
  obtain ⟨b1, b2, b3⟩ := b
  obtain ⟨c1, c2, c3⟩ := c
  simp only [keyGe, Bool.or_eq_true, Bool.and_eq_true, decide_eq_true_eq] at *
  omega

theorem keyGe_total (a b : Nat × Nat × Nat) : (keyGe a b || keyGe b a) = true := by
  obtain ⟨a1, a2, a3⟩ := a
  obtain ⟨b1, b2, b3⟩ := b
  simp only [keyGe, Bool.or_eq_true, Bool.and_eq_true, decide_eq_true_eq] at *
  omega

theorem flatMap_filter_tags (p : Nat × Nat × Nat → Bool) (ix : Index) :
    (ix.filter (fun e => p e.1)).flatMap (·.2) = ((tagsIx ix).filter (fun t => p t.1)).map (·.2) := by
  induction ix with
  | nil => rfl
  | cons e ix ih =>
    have hc : tagsIx (e :: ix) = e.2.map (fun id => (e.1, id)) ++ tagsIx ix := by simp [tagsIx]
    rw [hc, List.filter_append, List.map_append, ← ih]
    by_cases h : p e.1 = true
    · rw [List.filter_cons_of_pos (by simpa using h)]
      rw [List.flatMap_cons]
      congr 1
      rw [List.filter_eq_self.2]
      · rw [List.map_map]
        exact (List.map_id _).symm
      · intro t ht
        obtain ⟨_, _, rfl⟩ := List.mem_map.1 ht
        exact h
    · rw [List.filter_cons_of_neg (by simpa using h)]
      have : (e.2.map (fun id => (e.1, id))).filter (fun t => p t.1) = [] := by
        rw [List.filter_eq_nil_iff]
        intro t ht
        obtain ⟨_, _, rfl⟩ := List.mem_map.1 ht
        exact h
      rw [this]
      rfl

theorem idsOfChain_perm (ix : Index) (hid : Nat) :
    (idsOfChain ix hid).Perm (((tagsIx ix).filter (fun t => decide (t.1.1 = hid))).map (·.2)) := by
  unfold idsOfChain
  refine ((sortBy_perm _ _).flatMap_right _).trans ?_
  rw [flatMap_filter_tags (fun k => decide (k.1 = hid))]

theorem idsOfToken_perm (ix : Index) (hid token : Nat) :
    (idsOfToken ix hid token).Perm
      (((tagsIx ix).filter (fun t => decide (t.1.1 = hid ∧ t.1.2.1 = token))).map (·.2)) := by
  unfold idsOfToken
  refine ((sortBy_perm _ _).flatMap_right _).trans ?_
  rw [flatMap_filter_tags (fun k => decide (k.1 = hid ∧ k.2.1 = token))]

/-! ## Looking up withdrawals -/

theorem lookupAll_some {pool : List ((Nat × Nat) × Tx)} {hid : Nat} {ids : List Nat}
    (h : ∀ id ∈ ids, ∃ tx, KV.get pool (hid, id) = some tx) : ∃ txs, lookupAll pool hid ids = some txs := by
  induction ids with
  | nil => exact ⟨[], rfl⟩
  | cons id ids ih =>
    obtain ⟨tx, h1⟩ := h id List.mem_cons_self
    obtain ⟨txs, h2⟩ := ih (fun i hi => h i (List.mem_cons_of_mem _ hi))
    exact ⟨tx :: txs, by simp [lookupAll, h1, h2]⟩

theorem lookupAll_forall₂ {pool : List ((Nat × Nat) × Tx)} {hid : Nat} {ids : List Nat} {txs : List Tx}
    (h : lookupAll pool hid ids = some txs) :
    ids.length = txs.length ∧ ∀ i (h1 : i < ids.length) (h2 : i < txs.length), KV.get pool (hid, ids[i]) = some txs[i] := by
  induction ids generalizing txs with
  | nil =>
    cases h
    exact ⟨rfl, fun i h1 _ => absurd h1 (Nat.not_lt_zero _)⟩
  | cons id ids ih =>
    unfold lookupAll at h
    cases hg : KV.get pool (hid, id) with
    | none => rw [hg] at h; cases h
    | some tx =>
      rw [hg] at h
      simp only [Option.map_eq_some_iff] at h
      obtain ⟨txs', h1, rfl⟩ := h
      obtain ⟨h2, h3⟩ := ih h1
      refine ⟨by simp [h2], ?_⟩
      intro i hi1 hi2
      cases i with
      | zero => exact hg
      | succ i => exact h3 i _ _

theorem lookupAll_mem {pool : List ((Nat × Nat) × Tx)} {hid : Nat} {ids : List Nat} {txs : List Tx}
    (h : lookupAll pool hid ids = some txs) {tx : Tx} (ht : tx ∈ txs) : ∃ id ∈ ids, KV.get pool (hid, id) = some tx := by
  obtain ⟨h1, h2⟩ := lookupAll_forall₂ h
  obtain ⟨i, hi, rfl⟩ := List.getElem_of_mem ht
  exact ⟨ids[i]'(by omega), List.getElem_mem _, h2 i _ _⟩

/-! ## The invariant of the three stores -/

/-- The pool, the index and the batches fit together. -/
structure Core (pool : List ((Nat × Nat) × Tx)) (ix : Index) (bs : List ((Nat × Nat × Nat) × Batch)) : Prop where
  dp : KV.Distinct pool
  dix : KV.Distinct ix
  db : KV.Distinct bs
  pkey : ∀ e ∈ pool, e.1 = (e.2.hid, e.2.id)
  bkey : ∀ e ∈ bs, e.1 = (e.2.hid, e.2.nonce, e.2.token)
  btok : ∀ e ∈ bs, ∀ tx ∈ e.2.txs, tx.hid = e.2.hid ∧ tx.token = e.2.token
  bmem : ∀ e ∈ bs, ∀ tx ∈ e.2.txs, ((tx.hid, tx.id), tx) ∈ pool
  perm : (tagsIx ix ++ tagsB bs).Perm (tagsP pool)
  nodup : (pool.map (fun e => e.2.id)).Nodup

theorem Core.init : Core [] [] [] where
  dp := List.nodup_nil
  dix := List.nodup_nil
  db := List.nodup_nil
  pkey := by simp
  bkey := by simp
  btok := by simp
  bmem := by simp
  perm := .refl _
  nodup := List.nodup_nil

variable {pool : List ((Nat × Nat) × Tx)} {ix : Index} {bs : List ((Nat × Nat × Nat) × Batch)}

theorem Core.inj (c : Core pool ix bs) {e e' : (Nat × Nat) × Tx} (h : e ∈ pool) (h' : e' ∈ pool)
    (hid : e.2.id = e'.2.id) : e = e' :=
  nodup_map_inj c.nodup h h' hid

theorem Core.tag_mem (c : Core pool ix bs) {t : (Nat × Nat × Nat) × Nat} (h : t ∈ tagsIx ix) :
    ∃ tx, KV.get pool (tx.hid, tx.id) = some tx ∧ tx.tag = t := by
  have : t ∈ tagsP pool := c.perm.mem_iff.1 (List.mem_append_left _ h)
  obtain ⟨e, he, rfl⟩ := List.mem_map.1 this
  refine ⟨e.2, KV.get_of_mem c.dp ?_, rfl⟩
  rw [← c.pkey e he]
  exact he

theorem Core.key (c : Core pool ix bs) {hid id : Nat} {tx : Tx} (h : KV.get pool (hid, id) = some tx) :
    tx.hid = hid ∧ tx.id = id := by
  have := c.pkey _ (KV.mem_of_get h)
  simp only [Prod.mk.injEq] at this
  exact ⟨this.1.symm, this.2.symm⟩

theorem Core.tags_nodup (c : Core pool ix bs) : (tagsIx ix ++ tagsB bs).Nodup := by
  refine (c.perm.nodup_iff).2 ?_
  have h := c.nodup
  unfold tagsP
  rw [List.nodup_iff_pairwise_ne, List.pairwise_map] at h ⊢
  exact h.imp (fun hab hh => hab (by simpa [Tx.tag] using (congrArg Prod.snd hh)))

/-- Two tags with the same id are equal. -/
theorem Core.tag_inj (c : Core pool ix bs) {t t' : (Nat × Nat × Nat) × Nat} (h : t ∈ tagsIx ix ++ tagsB bs)
    (h' : t' ∈ tagsIx ix ++ tagsB bs) (hid : t.2 = t'.2) : t = t' := by
  obtain ⟨e, he, rfl⟩ := List.mem_map.1 (c.perm.mem_iff.1 h)
  obtain ⟨e', he', rfl⟩ := List.mem_map.1 (c.perm.mem_iff.1 h')
  rw [c.inj he he' (by simpa [Tx.tag] using hid)]

theorem Core.ids_nodup (c : Core pool ix bs) : ((tagsIx ix).map (·.2)).Nodup := by
  have h : (tagsIx ix).Nodup := (List.nodup_append.1 c.tags_nodup).1
  rw [List.nodup_iff_pairwise_ne] at h
  rw [List.nodup_iff_pairwise_ne, List.pairwise_map, List.pairwise_iff_forall_sublist]
  intro a b hs hab
  have hm := hs.subset
  have ha : a ∈ tagsIx ix := hm (by simp)
  have hb : b ∈ tagsIx ix := hm (by simp)
  exact (List.pairwise_iff_forall_sublist.1 h hs) (c.tag_inj (List.mem_append_left _ ha) (List.mem_append_left _ hb) hab)

/-- The withdrawals of a set of listed ids. -/
theorem Core.lookup (c : Core pool ix bs) {hid : Nat} {ids : List Nat} {tags : List ((Nat × Nat × Nat) × Nat)}
    (hp : ids.Perm (tags.map (·.2))) (hsub : ∀ t ∈ tags, t ∈ tagsIx ix ∧ t.1.1 = hid) :
    ∃ txs, lookupAll pool hid ids = some txs ∧ txs.map (·.id) = ids ∧ (txs.map Tx.tag).Perm tags ∧
      ∀ tx ∈ txs, KV.get pool (tx.hid, tx.id) = some tx ∧ tx.tag ∈ tagsIx ix ∧ tx.hid = hid := by
  have hlook : ∀ id ∈ ids, ∃ tx, KV.get pool (hid, id) = some tx ∧ tx.tag ∈ tags := by
    intro id hid'
    obtain ⟨t, ht, rfl⟩ := List.mem_map.1 (hp.mem_iff.1 hid')
    obtain ⟨h1, h2⟩ := hsub t ht
    obtain ⟨tx, h3, h4⟩ := c.tag_mem h1
    refine ⟨tx, ?_, by rw [h4]; exact ht⟩
    have : tx.hid = hid := by rw [← h2, ← h4]; rfl
    have h5 : tx.id = t.2 := by rw [← h4]; rfl
    rw [← this, ← h5]
    exact h3
  obtain ⟨txs, htxs⟩ := lookupAll_some (fun id h => (hlook id h).imp (fun _ h => h.1))
  obtain ⟨hl, hget⟩ := lookupAll_forall₂ htxs
  have hids : txs.map (·.id) = ids := by
    apply List.ext_getElem (by simp [hl])
    intro i h1 h2
    rw [List.getElem_map]
    exact (c.key (hget i h2 (by simpa using h1))).2
  have hall : ∀ tx ∈ txs, KV.get pool (tx.hid, tx.id) = some tx ∧ tx.tag ∈ tags := by
    intro tx ht
    obtain ⟨id, h1, h2⟩ := lookupAll_mem htxs ht
    obtain ⟨tx', h3, h4⟩ := hlook id h1
    rw [h2] at h3
    cases h3
    have hk := c.key h2
    rw [hk.1, hk.2]
    exact ⟨h2, h4⟩
  refine ⟨txs, htxs, hids, ?_, fun tx ht => ⟨(hall tx ht).1, (hsub _ (hall tx ht).2).1, ?_⟩⟩
  · -- tags are determined by their ids
    have hp' : ((txs.map Tx.tag).map (·.2)).Perm (tags.map (·.2)) := by
      rw [List.map_map]
      have : (Prod.snd ∘ Tx.tag) = Tx.id := rfl
      rw [this]
      show (txs.map (·.id)).Perm _
      rw [hids]
      exact hp
    have hback : ∀ (l : List ((Nat × Nat × Nat) × Nat)), (∀ t ∈ l, t ∈ tags) →
        l = (l.map (·.2)).filterMap (fun id => (tagsIx ix).find? (fun t => decide (t.2 = id))) := by
      intro l hl
      induction l with
      | nil => rfl
      | cons t l ih =>
        have h1 := (hsub t (hl t List.mem_cons_self)).1
        have : (tagsIx ix).find? (fun t' => decide (t'.2 = t.2)) = some t := by
          cases hf : (tagsIx ix).find? (fun t' => decide (t'.2 = t.2)) with
          | none => exact absurd (List.find?_eq_none.1 hf t h1) (by simp)
          | some t' =>
            have h2 := List.mem_of_find?_eq_some hf
            have h3 := List.find?_some hf
            rw [c.tag_inj (List.mem_append_left _ h2) (List.mem_append_left _ h1) (by simpa using h3)]
        simp only [List.map_cons]
        rw [List.filterMap_cons_some (f := fun id => (tagsIx ix).find? (fun t => decide (t.2 = id))) this, ← ih (fun t' h => hl t' (List.mem_cons_of_mem _ h))]
    rw [hback (txs.map Tx.tag) (by
      intro t ht
      obtain ⟨tx, h1, rfl⟩ := List.mem_map.1 ht
      exact (hall tx h1).2), hback tags (fun t h => h)]
    exact hp'.filterMap _
  · have := (hsub _ (hall tx ht).2).2
    exact this

theorem Core.lookupChain (c : Core pool ix bs) (hid : Nat) :
    ∃ txs, lookupAll pool hid (idsOfChain ix hid) = some txs ∧ txs.map (·.id) = idsOfChain ix hid ∧
      (txs.map Tx.tag).Perm ((tagsIx ix).filter (fun t => decide (t.1.1 = hid))) ∧
      ∀ tx ∈ txs, KV.get pool (tx.hid, tx.id) = some tx ∧ tx.tag ∈ tagsIx ix ∧ tx.hid = hid :=
  c.lookup (idsOfChain_perm ix hid) (by
    intro t ht
    simpa using List.mem_filter.1 ht)

theorem Core.lookupToken (c : Core pool ix bs) (hid token : Nat) :
    ∃ txs, lookupAll pool hid (idsOfToken ix hid token) = some txs ∧ txs.map (·.id) = idsOfToken ix hid token ∧
      (txs.map Tx.tag).Perm ((tagsIx ix).filter (fun t => decide (t.1.1 = hid ∧ t.1.2.1 = token))) ∧
      ∀ tx ∈ txs, KV.get pool (tx.hid, tx.id) = some tx ∧ tx.tag ∈ tagsIx ix ∧ tx.hid = hid :=
  c.lookup (idsOfToken_perm ix hid token) (by
    intro t ht
    have := List.mem_filter.1 ht
    exact ⟨this.1, by simpa using (by simpa using this.2 : t.1.1 = hid ∧ t.1.2.1 = token).1⟩)

end Hyperion
