import Verif.Hyperion.PoolProps2
/-!
# Exporting and importing the bridge

Models the part of `helios-chain/x/hyperion/keeper/genesis.go` lines 52-242 that concerns withdrawals and batches.
-/
namespace Hyperion

/-- `types.GenesisHyperionState`, the fields about withdrawals and batches. -/
structure ChainGenesis where
  hid : Nat
  batches : List Batch
  transfers : List Tx
  lastBatch : Nat
  lastPool : Nat

/-- One chain of `ExportGenesis` (genesis.go 178-232).  The withdrawals are those `GetPoolTransactions` lists.
`LastOutgoingPoolId` is read with `GetLastTXPoolIDKey(hyperionId)` (pool.go 738-751), a key that no code but the import
writes: ids come from `KeyLastTXPoolID` (pool.go 80).  So the exported value is zero. -/
def exportChain (s : State) (hid : Nat) : Option ChainGenesis :=
  (poolTxs s hid).map (fun txs =>
    { hid := hid, batches := batchesOf s hid, transfers := txs, lastBatch := s.lastBatch hid, lastPool := 0 })

/-- `ExportGenesis`: the chains of the parameters, in order. -/
def exportGenesis (s : State) : List Nat → Option (List ChainGenesis)
  | [] => some []
  | hid :: hids => (exportChain s hid).bind (fun g => (exportGenesis s hids).map (g :: ·))

/-- `setPoolEntry` (pool.go 330-345). -/
def setPoolEntry (s : State) (tx : Tx) : State := { s with pool := KV.set s.pool (tx.hid, tx.id) tx }

/-- `StoreBatchUnsafe` (batch.go 231-248). -/
def storeBatch (s : State) (b : Batch) : State :=
  b.txs.foldl setPoolEntry { s with batches := KV.set s.batches (b.hid, b.nonce, b.token) b }

/-- One chain of `InitGenesis` (genesis.go 88-131). `SetLastOutgoingPoolID` writes a key that is never used for ids. -/
def importChain (s : State) (g : ChainGenesis) : State :=
  let s1 := (g.batches.filter (fun b => decide (b.hid = g.hid))).foldl storeBatch s
  let s2 := (g.transfers.filter (fun tx => decide (tx.hid = g.hid))).foldl setPoolEntry s1
  { s2 with lastBatch := fun h => if h = g.hid then g.lastBatch else s2.lastBatch h }

/-- `InitGenesis` on a new chain whose bank module has imported its own state. -/
def importGenesis (bank : Bank) (links : List Link) (gs : List ChainGenesis) : State :=
  gs.foldl importChain (State.init bank links)

/-- Export and import. -/
def reborn (s : State) (hids : List Nat) : Option State := (exportGenesis s hids).map (importGenesis s.bank s.links)

/-! ## Lemmas -/

variable {sent : List Tx} {base : Denom → Nat} {s t t' : State} {cfg : Cfg}

/-- The imported state holds only entries of the exported one. -/
structure Sub (s t : State) : Prop where
  pool : ∀ e ∈ t.pool, e ∈ s.pool
  batches : ∀ e ∈ t.batches, e ∈ s.batches

/-- Nothing imported is dropped again. -/
structure Grow (t t' : State) : Prop where
  pool : ∀ e ∈ t.pool, e ∈ t'.pool
  batches : ∀ e ∈ t.batches, e ∈ t'.batches

theorem Grow.refl (t : State) : Grow t t := ⟨fun _ h => h, fun _ h => h⟩

theorem Grow.trans {a b c : State} (h1 : Grow a b) (h2 : Grow b c) : Grow a c :=
  ⟨fun e h => h2.pool e (h1.pool e h), fun e h => h2.batches e (h1.batches e h)⟩

theorem setPoolEntry_spec (i : Inv sent base s) (hs : Sub s t) {tx : Tx} (ht : ((tx.hid, tx.id), tx) ∈ s.pool) :
    Sub s (setPoolEntry t tx) ∧ Grow t (setPoolEntry t tx) ∧ ((tx.hid, tx.id), tx) ∈ (setPoolEntry t tx).pool ∧
    (∀ e ∈ (setPoolEntry t tx).pool, e ∈ t.pool ∨ e = ((tx.hid, tx.id), tx)) := by
  refine ⟨⟨?_, hs.batches⟩, ⟨?_, fun _ h => h⟩, KV.mem_set.2 (Or.inl rfl), ?_⟩
  · intro e he
    rcases KV.mem_set.1 he with rfl | ⟨h, _⟩
    · exact ht
    · exact hs.pool e h
  · intro e he
    by_cases hk : e.1 = (tx.hid, tx.id)
    · refine KV.mem_set.2 (Or.inl ?_)
      have h1 := KV.get_of_mem i.core.dp (hs.pool e he)
      have h2 := KV.get_of_mem i.core.dp ht
      rw [hk, h2] at h1
      cases h1
      exact Prod.ext hk rfl
    · exact KV.mem_set.2 (Or.inr ⟨he, hk⟩)
  · intro e he
    rcases KV.mem_set.1 he with rfl | ⟨h, _⟩
    · exact Or.inr rfl
    · exact Or.inl h

theorem setPoolEntries_spec (i : Inv sent base s) {L : List Tx} (hL : ∀ tx ∈ L, ((tx.hid, tx.id), tx) ∈ s.pool) :
    ∀ {t : State}, Sub s t → Sub s (L.foldl setPoolEntry t) ∧ Grow t (L.foldl setPoolEntry t) ∧
      (∀ tx ∈ L, ((tx.hid, tx.id), tx) ∈ (L.foldl setPoolEntry t).pool) ∧
      (∀ e ∈ (L.foldl setPoolEntry t).pool, e ∈ t.pool ∨ e.2 ∈ L) ∧
      (L.foldl setPoolEntry t).batches = t.batches ∧ (L.foldl setPoolEntry t).lastBatch = t.lastBatch := by
  induction L with
  | nil => exact fun hs => ⟨hs, Grow.refl _, by simp, fun e he => Or.inl he, rfl, rfl⟩
  | cons x L ih =>
    intro t hs
    obtain ⟨a1, a2, a3, a4⟩ := setPoolEntry_spec i hs (hL x List.mem_cons_self)
    obtain ⟨b1, b2, b3, b4, b5, b6⟩ := ih (fun tx ht => hL tx (List.mem_cons_of_mem _ ht)) a1
    refine ⟨b1, a2.trans b2, ?_, ?_, b5, b6⟩
    · intro tx ht
      rcases List.mem_cons.1 ht with rfl | ht
      · exact b2.pool _ a3
      · exact b3 tx ht
    · intro e he
      rcases b4 e he with h | h
      · rcases a4 e h with h | h
        · exact Or.inl h
        · rw [h]
          exact Or.inr List.mem_cons_self
      · exact Or.inr (List.mem_cons_of_mem _ h)

theorem storeBatch_spec (i : Inv sent base s) (hs : Sub s t) {b : Batch} (hb : ((b.hid, b.nonce, b.token), b) ∈ s.batches) :
    Sub s (storeBatch t b) ∧ Grow t (storeBatch t b) ∧ ((b.hid, b.nonce, b.token), b) ∈ (storeBatch t b).batches ∧
    (∀ tx ∈ b.txs, ((tx.hid, tx.id), tx) ∈ (storeBatch t b).pool) ∧
    (∀ e ∈ (storeBatch t b).pool, e ∈ t.pool ∨ e.2 ∈ b.txs) ∧
    (∀ e ∈ (storeBatch t b).batches, e ∈ t.batches ∨ e.2 = b) ∧ (storeBatch t b).lastBatch = t.lastBatch := by
  have hs1 : Sub s { t with batches := KV.set t.batches (b.hid, b.nonce, b.token) b } := by
    refine ⟨hs.pool, ?_⟩
    intro e he
    rcases KV.mem_set.1 he with rfl | ⟨h, _⟩
    · exact hb
    · exact hs.batches e h
  obtain ⟨a1, a2, a3, a4, a5, a6⟩ := setPoolEntries_spec i (fun tx ht => i.core.bmem _ hb tx ht) hs1
  unfold storeBatch
  refine ⟨a1, ⟨a2.pool, ?_⟩, ?_, a3, a4, ?_, a6⟩
  · intro e he
    rw [a5]
    by_cases hk : e.1 = (b.hid, b.nonce, b.token)
    · refine KV.mem_set.2 (Or.inl ?_)
      have h1 := KV.get_of_mem i.core.db (hs.batches e he)
      have h2 := KV.get_of_mem i.core.db hb
      rw [hk, h2] at h1
      cases h1
      exact Prod.ext hk rfl
    · exact KV.mem_set.2 (Or.inr ⟨he, hk⟩)
  · rw [a5]
    exact KV.mem_set.2 (Or.inl rfl)
  · intro e he
    rw [a5] at he
    rcases KV.mem_set.1 he with rfl | ⟨h, _⟩
    · exact Or.inr rfl
    · exact Or.inl h

theorem storeBatches_spec (i : Inv sent base s) {L : List Batch} (hL : ∀ b ∈ L, ((b.hid, b.nonce, b.token), b) ∈ s.batches) :
    ∀ {t : State}, Sub s t → Sub s (L.foldl storeBatch t) ∧ Grow t (L.foldl storeBatch t) ∧
      (∀ b ∈ L, ((b.hid, b.nonce, b.token), b) ∈ (L.foldl storeBatch t).batches) ∧
      (∀ b ∈ L, ∀ tx ∈ b.txs, ((tx.hid, tx.id), tx) ∈ (L.foldl storeBatch t).pool) ∧
      (∀ e ∈ (L.foldl storeBatch t).pool, e ∈ t.pool ∨ ∃ b ∈ L, e.2 ∈ b.txs) ∧
      (∀ e ∈ (L.foldl storeBatch t).batches, e ∈ t.batches ∨ e.2 ∈ L) ∧
      (L.foldl storeBatch t).lastBatch = t.lastBatch := by
  induction L with
  | nil => exact fun hs => ⟨hs, Grow.refl _, by simp, by simp, fun e he => Or.inl he, fun e he => Or.inl he, rfl⟩
  | cons x L ih =>
    intro t hs
    obtain ⟨a1, a2, a3, a4, a5, a6, a7⟩ := storeBatch_spec i hs (hL x List.mem_cons_self)
    obtain ⟨b1, b2, b3, b4, b5, b6, b7⟩ := ih (fun b hb => hL b (List.mem_cons_of_mem _ hb)) a1
    refine ⟨b1, a2.trans b2, ?_, ?_, ?_, ?_, b7.trans a7⟩
    · intro b hb
      rcases List.mem_cons.1 hb with rfl | hb
      · exact b2.batches _ a3
      · exact b3 b hb
    · intro b hb tx ht
      rcases List.mem_cons.1 hb with rfl | hb
      · exact b2.pool _ (a4 tx ht)
      · exact b4 b hb tx ht
    · intro e he
      rcases b5 e he with h | ⟨b, hb, h⟩
      · rcases a5 e h with h | h
        · exact Or.inl h
        · exact Or.inr ⟨x, List.mem_cons_self, h⟩
      · exact Or.inr ⟨b, List.mem_cons_of_mem _ hb, h⟩
    · intro e he
      rcases b6 e he with h | h
      · rcases a6 e h with h | h
        · exact Or.inl h
        · rw [h]
          exact Or.inr List.mem_cons_self
      · exact Or.inr (List.mem_cons_of_mem _ h)

theorem importChain_spec (i : Inv sent base s) (hs : Sub s t) {hid : Nat} {g : ChainGenesis} (hg : exportChain s hid = some g) :
    Sub s (importChain t g) ∧ Grow t (importChain t g) ∧
    (∀ e ∈ s.pool, e.2.hid = hid → e ∈ (importChain t g).pool) ∧
    (∀ e ∈ s.batches, e.2.hid = hid → e ∈ (importChain t g).batches) ∧
    (∀ e ∈ (importChain t g).pool, e ∈ t.pool ∨ e.2.hid = hid) ∧
    (∀ e ∈ (importChain t g).batches, e ∈ t.batches ∨ e.2.hid = hid) ∧
    (∀ h, (importChain t g).lastBatch h = if h = hid then s.lastBatch hid else t.lastBatch h) := by
  obtain ⟨txs, h1, h2, h3⟩ := poolTxs_ok i hid
  unfold exportChain at hg
  rw [h1] at hg
  simp only [Option.map_some, Option.some.injEq] at hg
  subst hg
  unfold importChain
  simp only
  have fb : ∀ b ∈ (batchesOf s hid).filter (fun b => decide (b.hid = hid)),
      ((b.hid, b.nonce, b.token), b) ∈ s.batches ∧ b.hid = hid := by
    intro b hb
    obtain ⟨hb1, hb2⟩ := mem_batchesOf i.core (List.mem_filter.1 hb).1
    exact ⟨KV.mem_of_get hb1, hb2⟩
  have ft : ∀ tx ∈ txs.filter (fun tx => decide (tx.hid = hid)), ((tx.hid, tx.id), tx) ∈ s.pool ∧ tx.hid = hid := by
    intro tx ht
    obtain ⟨h5, _, h6⟩ := h3 tx (List.mem_filter.1 ht).1
    exact ⟨KV.mem_of_get h5, h6⟩
  obtain ⟨a1, a2, a3, a4, a5, a6, a7⟩ := storeBatches_spec i (fun b hb => (fb b hb).1) hs
  obtain ⟨b1, b2, b3, b4, b5, b6⟩ := setPoolEntries_spec i (fun tx ht => (ft tx ht).1) a1
  generalize ((batchesOf s hid).filter (fun b => decide (b.hid = hid))).foldl storeBatch t = t1 at *
  generalize (txs.filter (fun tx => decide (tx.hid = hid))).foldl setPoolEntry t1 = t2 at *
  refine ⟨⟨b1.pool, b1.batches⟩, ⟨fun e he => b2.pool e (a2.pool e he), fun e he => b2.batches e (a2.batches e he)⟩,
    ?_, ?_, ?_, ?_, ?_⟩
  · intro e he hh
    have htag : e.2.tag ∈ tagsIx s.index ++ tagsB s.batches :=
      i.core.perm.mem_iff.2 (List.mem_map_of_mem (f := fun e => e.2.tag) he)
    have hkey := i.core.pkey e he
    have hself : e = ((e.2.hid, e.2.id), e.2) := Prod.ext hkey rfl
    rcases List.mem_append.1 htag with ht | ht
    · have : e.2.tag ∈ txs.map Tx.tag := h2.mem_iff.2 (List.mem_filter.2 ⟨ht, decide_eq_true hh⟩)
      obtain ⟨x, hx1, hx2⟩ := List.mem_map.1 this
      have := i.core.inj (KV.mem_of_get (h3 x hx1).1) he (by simpa [Tx.tag] using congrArg Prod.snd hx2)
      have hx : x = e.2 := congrArg (·.2) this
      rw [hself]
      have := b3 x (List.mem_filter.2 ⟨hx1, decide_eq_true (h3 x hx1).2.2⟩)
      rw [hx] at this
      exact this
    · obtain ⟨b, hb, ht2⟩ := List.mem_flatMap.1 ht
      obtain ⟨x, hx1, hx2⟩ := List.mem_map.1 ht2
      have := i.core.inj (i.core.bmem b hb x hx1) he (by simpa [Tx.tag] using congrArg Prod.snd hx2)
      have hx : x = e.2 := congrArg (·.2) this
      have hbh : b.2.hid = hid := by
        rw [← (i.core.btok b hb x hx1).1, hx]
        exact hh
      have hbm : b.2 ∈ (batchesOf s hid).filter (fun b => decide (b.hid = hid)) :=
        List.mem_filter.2 ⟨batchesOf_mem (KV.get_of_mem i.core.db hb) (by rw [i.core.bkey b hb]; exact hbh), decide_eq_true hbh⟩
      have := b2.pool _ (a4 b.2 hbm x hx1)
      rw [hx] at this
      rw [hself]
      exact this
  · intro e he hh
    have hkey := i.core.bkey e he
    have hself : e = ((e.2.hid, e.2.nonce, e.2.token), e.2) := Prod.ext hkey rfl
    rw [hself]
    refine b2.batches _ (a3 e.2 ?_)
    exact List.mem_filter.2 ⟨batchesOf_mem (KV.get_of_mem i.core.db he) (by rw [hkey]; exact hh), decide_eq_true hh⟩
  · intro e he
    rcases b4 e he with h | h
    · rcases a5 e h with h | ⟨b, hb, h⟩
      · exact Or.inl h
      · right
        rw [(i.core.btok _ (fb b hb).1 e.2 h).1]
        exact (fb b hb).2
    · exact Or.inr (ft _ h).2
  · intro e he
    rw [b5] at he
    rcases a6 e he with h | h
    · exact Or.inl h
    · exact Or.inr (fb _ h).2
  · intro h
    rw [b6, a7]

theorem importGenesis_spec (i : Inv sent base s) {hids : List Nat} : ∀ {gs : List ChainGenesis} {t : State},
    exportGenesis s hids = some gs → Sub s t →
    Sub s (gs.foldl importChain t) ∧ Grow t (gs.foldl importChain t) ∧
    (∀ e ∈ s.pool, e.2.hid ∈ hids → e ∈ (gs.foldl importChain t).pool) ∧
    (∀ e ∈ s.batches, e.2.hid ∈ hids → e ∈ (gs.foldl importChain t).batches) ∧
    (∀ e ∈ (gs.foldl importChain t).pool, e ∈ t.pool ∨ e.2.hid ∈ hids) ∧
    (∀ e ∈ (gs.foldl importChain t).batches, e ∈ t.batches ∨ e.2.hid ∈ hids) ∧
    (∀ h, (gs.foldl importChain t).lastBatch h = if h ∈ hids then s.lastBatch h else t.lastBatch h) := by
  induction hids with
  | nil =>
    intro gs t h hs
    cases h
    exact ⟨hs, Grow.refl _, by simp, by simp, fun e he => Or.inl he, fun e he => Or.inl he, by simp⟩
  | cons hid hids ih =>
    intro gs t h hs
    simp only [exportGenesis, Option.bind_eq_some_iff, Option.map_eq_some_iff] at h
    obtain ⟨g, hg, gs', hgs, rfl⟩ := h
    obtain ⟨a1, a2, a3, a4, a5, a6, a7⟩ := importChain_spec i hs hg
    obtain ⟨b1, b2, b3, b4, b5, b6, b7⟩ := ih hgs a1
    simp only [List.foldl_cons]
    refine ⟨b1, a2.trans b2, ?_, ?_, ?_, ?_, ?_⟩
    · intro e he hh
      rcases List.mem_cons.1 hh with hh | hh
      · exact b2.pool _ (a3 e he hh)
      · exact b3 e he hh
    · intro e he hh
      rcases List.mem_cons.1 hh with hh | hh
      · exact b2.batches _ (a4 e he hh)
      · exact b4 e he hh
    · intro e he
      rcases b5 e he with h | h
      · rcases a5 e h with h | h
        · exact Or.inl h
        · exact Or.inr (by rw [h]; exact List.mem_cons_self)
      · exact Or.inr (List.mem_cons_of_mem _ h)
    · intro e he
      rcases b6 e he with h | h
      · rcases a6 e h with h | h
        · exact Or.inl h
        · exact Or.inr (by rw [h]; exact List.mem_cons_self)
      · exact Or.inr (List.mem_cons_of_mem _ h)
    · intro h
      rw [b7, a7]
      by_cases h1 : h = hid
      · subst h1
        simp
      · simp [h1]

theorem exportGenesis_ok (i : Inv sent base s) (hids : List Nat) : ∃ gs, exportGenesis s hids = some gs := by
  induction hids with
  | nil => exact ⟨_, rfl⟩
  | cons hid hids ih =>
    obtain ⟨gs, h1⟩ := ih
    obtain ⟨txs, h2, _⟩ := poolTxs_ok i hid
    simp [exportGenesis, exportChain, h1, h2]

end Hyperion
