import Verif.Hyperion.PoolProps
/-!
# Theorems about the outgoing side of the bridge, continued
-/
namespace Hyperion
open StableSort

variable {cfg : Cfg} {s s' : State}

theorem endedAs_execute (txs : List Tx) (f : List (Tx × Ended)) :
    ((txs.map (fun tx => (tx, Ended.executed)) ++ f).filter (fun e => decide (e.2 = .refunded))).map (·.1) =
      (f.filter (fun e => decide (e.2 = .refunded))).map (·.1) := by
  induction txs with
  | nil => rfl
  | cons t txs ih =>
    rw [List.map_cons, List.cons_append, List.filter_cons_of_neg (by simp)]
    exact ih

/-- An observed execution of a stored batch ends exactly the withdrawals of that batch, pays exactly their fees to the
orchestrator and nothing to anybody else, refunds nothing, and puts the withdrawals of the earlier batches of the token
back among the waiting ones. -/
theorem executed_ends (h : Reachable cfg s) {hid token nonce orch : Nat} {b : Batch} {evs : List Ev}
    (hb : ((hid, nonce, token), b) ∈ s.batches) (hs : step cfg s (.executed hid token nonce orch) = (s', .ok evs)) :
    endedAs s' .executed = b.txs ++ endedAs s .executed ∧ endedAs s' .refunded = endedAs s .refunded ∧
    (b.txs ++ (available s' ++ batched s')).Perm (available s ++ batched s) ∧
    (∀ u d, s'.bank.bal (.user u) d = s.bank.bal (.user u) d + if u = orch ∧ d = ahelios then feesOf b.txs else 0) ∧
    (∀ e ∈ s'.batches, e ∈ s.batches ∧ ¬ (e.2.hid = hid ∧ e.2.token = token ∧ e.2.nonce ≤ nonce)) := by
  obtain ⟨sent, base, i⟩ := h.inv
  have hg := KV.get_of_mem i.core.db hb
  simp only [step] at hs
  cases hx : batchExecuted cfg s hid token nonce orch with
  | none => rw [hx] at hs; simp at hs
  | some s1 =>
    rw [hx] at hs
    simp only [Prod.mk.injEq] at hs
    obtain ⟨rfl, _⟩ := hs
    have i1 := step_inv cfg i (.executed hid token nonce orch)
    simp only [step, hx] at i1
    obtain ⟨e1, e2, e3, e4, e5, e6, e7⟩ := executed_spec i hg hx
    refine ⟨?_, ?_, ?_, e5, fun e he => ⟨e7 e he, e6 e he⟩⟩
    · unfold endedAs
      rw [e1]
      exact map_filter_executed _ _ _
    · unfold endedAs
      rw [e1]
      exact endedAs_execute _ _
    · exact (((pool_places i1).symm.append_left b.txs).trans e4.symm).trans (pool_places i)

example : ((run cfg0 (State.init bank0 links0) (ops0.take 6)).1.batches.map (·.1) = [(1, 1, 77)]) := by decide +kernel
example : (step cfg0 (run cfg0 (State.init bank0 links0) (ops0.take 6)).1 (.executed 1 77 1 8)).2 = .ok [] := by decide +kernel

/-- Only cancelling, timeouts, resets and executions end withdrawals. -/
theorem others_end_nothing (o : Op) (h1 : ∀ a b c, o ≠ .cancelSend a b c) (h2 : ∀ a b c, o ≠ .timeouts a b c)
    (h3 : ∀ a, o ≠ .cleanAll a) (h4 : ∀ a b c d, o ≠ .executed a b c d) :
    (step cfg s o).1.finalized = s.finalized ∧ (step cfg s o).1.lost = s.lost := by
  cases o with
  | send sender hid dest d amount feeDenom fee timeout =>
    simp only [step]
    cases h : addToPool s sender hid dest d amount feeDenom fee timeout with
    | none => exact ⟨rfl, rfl⟩
    | some r =>
      unfold addToPool at h
      split at h
      · cases h
      · split at h
        · cases h
        · split at h
          · cases h
          · dsimp only at h
            generalize (if isCosmos s.links d = true then _ else s.links) = links' at h
            split at h
            · cases h
            · split at h
              · cases h
              · split at h
                · cases h
                · cases h
                  exact ⟨rfl, rfl⟩
  | cancelSend a b c => exact absurd rfl (h1 a b c)
  | requestBatch hid d timeout =>
    simp only [step]
    cases hl : linkByDenom s.links hid d with
    | none => exact ⟨rfl, rfl⟩
    | some l =>
      simp only
      cases h : buildBatch cfg s hid l.addr timeout with
      | none => exact ⟨rfl, rfl⟩
      | some r =>
        unfold buildBatch at h
        split at h
        · cases h
        · dsimp only at h
          split at h
          · cases h
          · cases h
            exact ⟨rfl, rfl⟩
  | requestBatchIds hid d timeout ids =>
    simp only [step]
    cases hl : linkByDenom s.links hid d with
    | none => exact ⟨rfl, rfl⟩
    | some l =>
      simp only
      cases h : buildBatchIds cfg s hid l.addr timeout ids with
      | none => exact ⟨rfl, rfl⟩
      | some r =>
        unfold buildBatchIds at h
        split at h
        · cases h
        · split at h
          · cases h
          · split at h
            · cases h
            · cases h
              exact ⟨rfl, rfl⟩
  | deposit hid addr amount receiver =>
    simp only [step]
    cases h : deposit cfg s hid addr amount receiver with
    | none => exact ⟨rfl, rfl⟩
    | some r =>
      unfold deposit at h
      cases hl : linkByAddr s.links hid addr with
      | some l =>
        rw [hl] at h
        dsimp only at h
        split at h
        · cases h
        · split at h
          · cases h
          · cases h
            exact ⟨rfl, rfl⟩
      | none =>
        rw [hl] at h
        dsimp only at h
        split at h
        · cases h
        · split at h
          · cases h
          · cases h
            exact ⟨rfl, rfl⟩
  | executed a b c d => exact absurd rfl (h4 a b c d)
  | timeouts a b c => exact absurd rfl (h2 a b c)
  | cleanAll a => exact absurd rfl (h3 a)
  | link hid addr d =>
    simp only [step]
    split
    · exact ⟨rfl, rfl⟩
    · exact ⟨rfl, rfl⟩
  | transfer src dst d n =>
    simp only [step]
    split <;> exact ⟨rfl, rfl⟩
  | dataRequest origin hid contract fee =>
    simp only [step]
    cases h : dataRequest s origin hid contract fee with
    | none => exact ⟨rfl, rfl⟩
    | some s' =>
      unfold dataRequest at h
      split at h
      · cases h
      · cases h
        exact ⟨rfl, rfl⟩
  | dataExecute hid nonce contract votes =>
    simp only [step, dataExecute]
    split <;> exact ⟨rfl, rfl⟩
  | dataTimeout hid nonce contract =>
    simp only [step, dataTimeout]
    split <;> exact ⟨rfl, rfl⟩

example : ∀ a b c, (Op.transfer 1 2 ahelios 3) ≠ .cancelSend a b c := by simp

/-- A double payment: a batch is handed out, cancelled because the *projected* height of the other chain passed its
timeout, its withdrawal is refunded; then the execution of that same batch is observed.  The sender has the coins back
although the batch was executed. -/
theorem refunded_and_executed :
    let ops : List Op := [.send 1 1 11 (.named 5) 10 ahelios 3 100, .requestBatch 1 (.named 5) 50, .timeouts 1 101 false,
      .executed 1 77 1 8]
    let r := run cfg0 (State.init bank0 links0) ops
    (handedOut 1 1 77 (events r.2)).map (·.id) = [1] ∧ r.2.getLast? = some (.ok []) ∧
    (endedAs r.1 .refunded).map (·.id) = [1] ∧ endedAs r.1 .executed = [] ∧ r.1.bank.bal (.user 1) (.named 5) = 1000 ∧
    r.1.bank.bal (.user 1) ahelios = 1000 := by
  decide +kernel

/-! ## C23: supply and fees -/

/-- For every denomination: the supply, together with what pending, executed and lost-without-minting withdrawals stand
for, is the initial supply plus what deposits and token creations issued.  The full property would have no term for token
creations; `first_deposit_issues_more` shows that it is there. -/
theorem supply_conserved_partial (cfg : Cfg) (bank : Bank) {links : List Link} (hl : LinksOk links) (ops : List Op) (d : Denom) :
    let s := (run cfg (State.init bank links) ops).1
    s.bank.supply d + amountIn s.links d (available s ++ batched s) + amountIn s.links d (endedAs s .executed) +
      amountIn s.links d ((s.lost.filter (fun e => !e.2)).map (·.1)) =
    bank.supply d + issuedIn d (events (run cfg (State.init bank links) ops).2) := by
  intro s
  have i := run_inv cfg ops (Inv.init bank hl)
  have h1 := i.ledger d
  unfold burnt at h1
  rw [amountIn_append, amountIn_append] at h1
  rw [← amountIn_perm _ _ (pool_places i)]
  simp only [s]
  have h2 : (State.init bank links).bank.supply d = bank.supply d := rfl
  omega

/-- The fees of all pending withdrawals and data requests are covered by the ahelios the module holds. -/
theorem fees_covered (h : Reachable cfg s) :
    feesOf (available s ++ batched s) + (s.data.map (fun e => e.2.fee)).sum ≤ s.bank.bal .module ahelios := by
  obtain ⟨sent, base, i⟩ := h.inv
  have := i.escrow
  rw [feesOf_perm (pool_places i)] at this
  exact this

example : feesOf (available (run cfg0 (State.init bank0 links0) (ops0.take 5)).1 ++
    batched (run cfg0 (State.init bank0 links0) (ops0.take 5)).1) = 18 := by decide +kernel

/-- Submitting a withdrawal takes exactly amount and fee from the sender, and nothing from others; the supply falls by
the amount. -/
theorem send_takes (h : Reachable cfg s) {sender hid dest : Nat} {d feeDenom : Denom} {amount fee timeout : Nat} {evs : List Ev}
    (hs : step cfg s (.send sender hid dest d amount feeDenom fee timeout) = (s', .ok evs)) :
    ∃ tx, evs = [.sent tx] ∧ tx ∈ available s' ∧ tx.sender = sender ∧ tx.hid = hid ∧ tx.dest = dest ∧ tx.amount = amount ∧
      tx.fee = fee ∧ 0 < amount ∧ feeDenom = ahelios ∧ denomOf s'.links tx = some d ∧
      (∀ u e, s'.bank.bal (.user u) e + (if u = sender then (if e = d then amount else 0) +
        (if e = ahelios then fee else 0) else 0) = s.bank.bal (.user u) e) ∧
      s'.bank.supply d + amount = s.bank.supply d := by
  obtain ⟨sent, base, i⟩ := h.inv
  simp only [step] at hs
  cases hx : addToPool s sender hid dest d amount feeDenom fee timeout with
  | none => rw [hx] at hs; simp at hs
  | some r =>
    obtain ⟨s1, tx⟩ := r
    rw [hx] at hs
    simp only [Prod.mk.injEq, Out.ok.injEq] at hs
    obtain ⟨rfl, rfl⟩ := hs
    obtain ⟨i1, h1, h2, h3, h4, h5, h6, h7, h8, h9, h10⟩ := addToPool_inv i hx
    have hfresh : ∀ t ∈ sent, t.id ≠ tx.id := by
      intro t ht
      have := (i.id_le ht).2
      omega
    have hpool : tx ∈ s1.pool.map (·.2) ∧ tx.tag ∈ tagsIx s1.index ∧ s1.bank.supply d + amount = s.bank.supply d := by
      unfold addToPool at hx
      split at hx
      · cases hx
      · split at hx
        · cases hx
        · split at hx
          · cases hx
          · dsimp only at hx
            generalize (if isCosmos s.links d = true then _ else s.links) = links' at hx
            split at hx
            · cases hx
            · rename_i b1 hb1
              split at hx
              · cases hx
              · rename_i b2 hb2
                split at hx
                · cases hx
                · rename_i b3 hb3
                  cases hx
                  refine ⟨?_, ?_, ?_⟩
                  · exact List.mem_map_of_mem (f := (·.2)) (List.mem_cons_self (a := ((_, _), _)))
                  · exact (appendIdx_tags i.core.dix _ _).mem_iff.2 List.mem_cons_self
                  · obtain ⟨_, q1, _⟩ := Bank.send_some hb1
                    obtain ⟨_, q2, q3, _⟩ := Bank.burn_some hb2
                    obtain ⟨_, q4, _⟩ := Bank.send_some hb3
                    have := q3 d
                    simp only
                    rw [q4]
                    rw [q1] at q2 this
                    simp only [if_true] at this
                    omega
    refine ⟨tx, rfl, ?_, h2, h3, h4, h5, h6, by omega, h8, h7, h10, hpool.2.2⟩
    rw [available_iff i1]
    refine ⟨?_, hpool.2.1⟩
    obtain ⟨e, he, he2⟩ := List.mem_map.1 hpool.1
    subst he2
    have hk := i1.core.pkey e he
    rw [← hk]
    exact KV.get_of_mem i1.core.dp he

example : (step cfg0 (State.init bank0 links0) (.send 1 1 11 (.named 5) 10 ahelios 3 100)).2 =
    .ok [.sent { id := 1, sender := 1, hid := 1, dest := 11, token := 77, amount := 10, fee := 3, timeout := 100 }] := by
  decide +kernel

/-- A deposit credits exactly its amount to its receiver (when that account can be paid) and nothing to other users. -/
theorem deposit_credits {hid addr amount : Nat} {receiver : Option Nat} {evs : List Ev}
    (hs : step cfg s (.deposit hid addr amount receiver) = (s', .ok evs)) :
    ∃ d, evs.getLast? = some (.deposited d amount) ∧
      ∀ u e, s'.bank.bal (.user u) e = s.bank.bal (.user u) e +
        if receiver = some u ∧ cfg.blocked u = false ∧ e = d then amount else 0 := by
  simp only [step] at hs
  cases hx : deposit cfg s hid addr amount receiver with
  | none => rw [hx] at hs; simp at hs
  | some r =>
    obtain ⟨s1, ev⟩ := r
    rw [hx] at hs
    simp only [Prod.mk.injEq, Out.ok.injEq] at hs
    obtain ⟨rfl, rfl⟩ := hs
    obtain ⟨d, h1, _, _, h2⟩ := deposit_bal hx
    exact ⟨d, h1, h2⟩

example : (step cfg0 (State.init bank0 links0) (.deposit 1 88 15 (some 3))).2 =
    .ok [.created (.bridged 1 88), .deposited (.bridged 1 88) 15] := by decide +kernel

/-- The first deposit of a token the chain does not know makes one unit more than was deposited. -/
theorem first_deposit_issues_more :
    (step cfg0 (State.init { bank0 with supply := fun _ => 0 } links0) (.deposit 1 88 15 (some 3))).1.bank.supply (.bridged 1 88) = 16 ∧
    (step cfg0 (State.init { bank0 with supply := fun _ => 0 } links0) (.deposit 1 88 15 (some 3))).1.bank.bal (.user 3) (.bridged 1 88) = 15 := by
  decide +kernel

/-! ## C26: ids and nonces -/

/-- The ids of the accepted withdrawals are 1, 2, 3, ... in the order of acceptance. -/
theorem ids_never_reused (cfg : Cfg) (bank : Bank) {links : List Link} (hl : LinksOk links) (ops : List Op) :
    ∃ n, (sentIn (events (run cfg (State.init bank links) ops).2)).map (·.id) = List.range' 1 n := by
  have i := run_inv cfg ops (Inv.init bank hl)
  exact ⟨_, i.ids⟩

/-- The nonces handed out for one chain, to batches and data requests, are 1, 2, 3, ... in the order of creation. -/
theorem nonces_never_reused (cfg : Cfg) (bank : Bank) {links : List Link} (hl : LinksOk links) (ops : List Op) (hid : Nat) :
    ∃ n, noncesIn hid (events (run cfg (State.init bank links) ops).2) = List.range' 1 n := by
  have := (run_nonces cfg ops hid (Inv.init bank hl)).1
  exact ⟨_, this⟩

example : (sentIn (events (run cfg0 (State.init bank0 links0) ops0).2)).map (·.id) = [1, 2, 3, 4] := by decide +kernel
example : noncesIn 1 (events (run cfg0 (State.init bank0 links0) (ops0 ++ [.requestBatch 1 (.named 5) 60])).2) = [1, 2] := by
  decide +kernel

/-! ## C27: which withdrawals a batch takes -/

/-- A requested batch takes, from the waiting withdrawals of the token, the ones with the highest fees, up to the limit. -/
theorem batch_highest_fees (h : Reachable cfg s) {hid : Nat} {d : Denom} {timeout : Nat} {evs : List Ev}
    (hs : step cfg s (.requestBatch hid d timeout) = (s', .ok evs)) :
    ∃ b l, evs = [.batch b] ∧ linkByDenom s.links hid d = some l ∧ b.hid = hid ∧ b.token = l.addr ∧ b.timeout = timeout ∧
      b.txs ≠ [] ∧ b.txs.length ≤ cfg.limit ∧ b.txs.Pairwise (fun x y => y.fee ≤ x.fee) ∧
      (b.txs ++ available s').Perm (available s) ∧ (∀ tx ∈ b.txs, tx.hid = hid ∧ tx.token = b.token) ∧
      (∀ tx ∈ b.txs, ∀ rest ∈ available s', rest.hid = hid → rest.token = b.token → rest.fee ≤ tx.fee) ∧
      (b.txs.length < cfg.limit → ∀ rest ∈ available s', ¬ (rest.hid = hid ∧ rest.token = b.token)) ∧
      b ∈ batchesOf s' hid := by
  obtain ⟨sent, base, i⟩ := h.inv
  simp only [step] at hs
  cases hl : linkByDenom s.links hid d with
  | none => rw [hl] at hs; simp at hs
  | some l =>
    rw [hl] at hs
    simp only at hs
    cases hb : buildBatch cfg s hid l.addr timeout with
    | none => rw [hb] at hs; simp at hs
    | some r =>
      obtain ⟨s1, b⟩ := r
      rw [hb] at hs
      simp only [Prod.mk.injEq, Out.ok.injEq] at hs
      obtain ⟨rfl, rfl⟩ := hs
      have i1 := buildBatch_inv i hb
      unfold buildBatch at hb
      split at hb
      · cases hb
      · rename_i hc
        have hlim : cfg.limit ≠ 0 := fun hz => hc (Or.inl hz)
        obtain ⟨txs, ix', q1, q2, q3, q4, q5, q6, q7⟩ := buildBatch_pick i hlim hid l.addr
        rw [q2] at hb
        dsimp only at hb
        split at hb
        · cases hb
        · rename_i hne
          have hav : ∀ tx ∈ txs, tx.tag ∈ tagsIx s.index := fun tx ht =>
            (List.mem_filter.1 (q5.mem_iff.1 (List.mem_map_of_mem ht))).1
          have hfees := lookup_fees i q6 hav
          have hpool : s1.pool = s.pool := by cases hb; rfl
          have hix : s1.index = ix' := by cases hb; rfl
          have hbt : b.txs = txs.take cfg.limit ∧ b.hid = hid ∧ b.token = l.addr ∧ b.timeout = timeout := by
            cases hb
            exact ⟨rfl, rfl, rfl, rfl⟩
          have hbs : KV.get s1.batches (hid, b.nonce, b.token) = some b := by
            cases hb
            simp [storeNewBatch, KV.get_set]
          obtain ⟨b1, b2, b3, b4⟩ := hbt
          -- waiting withdrawals of the token after the batch are the remaining candidates
          have htags : ((available s1).filter (fun t => decide (t.hid = hid ∧ t.token = l.addr))).map Tx.tag =
              (tagsIx ix').filter (fun t => decide (t.1.1 = hid ∧ t.1.2.1 = l.addr)) := by
            rw [← hix, ← available_tags i1, List.filter_map]
            rfl
          have hall : ∀ x ∈ (txs.take cfg.limit).map Tx.tag, decide (x.1.1 = hid ∧ x.1.2.1 = l.addr) = true := by
            intro x hx
            obtain ⟨t, ht, rfl⟩ := List.mem_map.1 hx
            have := (q7 t (List.mem_of_mem_take ht)).2
            exact decide_eq_true this
          have hrest : ((txs.drop cfg.limit).map Tx.tag).Perm
              ((tagsIx ix').filter (fun t => decide (t.1.1 = hid ∧ t.1.2.1 = l.addr))) := by
            have h1 := q4.filter (fun t => decide (t.1.1 = hid ∧ t.1.2.1 = l.addr))
            rw [List.filter_append, List.filter_eq_self.2 hall] at h1
            have h2 := q5.trans h1
            have h3 : txs.map Tx.tag = (txs.take cfg.limit).map Tx.tag ++ (txs.drop cfg.limit).map Tx.tag := by
              rw [← List.map_append, List.take_append_drop]
            rw [h3] at h2
            exact (List.perm_append_left_iff _).1 h2
          have hget : ∀ t ∈ available s1, KV.get s.pool (t.hid, t.id) = some t := by
            intro t ht
            rw [← hpool]
            exact (available_pool i1 ht).1
          have hnd : (tagsIx ix').Nodup := by
            rw [← hix]
            exact (List.nodup_append.1 i1.core.tags_nodup).1
          have hrest' : (txs.drop cfg.limit).Perm ((available s1).filter (fun t => decide (t.hid = hid ∧ t.token = l.addr))) := by
            refine perm_of_tags i (fun t ht => (q7 t (List.mem_of_mem_drop ht)).1)
              (fun t ht => hget t (List.mem_filter.1 ht).1) ?_ ?_
            · rw [htags]
              exact hnd.filter _
            · rw [htags]
              exact hrest
          refine ⟨b, l, rfl, rfl, b2, b3, b4, ?_, ?_, ?_, ?_, ?_, ?_, ?_, ?_⟩
          · rw [b1]
            intro hnil
            rw [hnil] at hne
            simp at hne
          · rw [b1, List.length_take]
            omega
          · rw [b1]
            exact hfees.sublist (List.take_sublist _ _)
          · refine perm_of_tags i ?_ (fun t ht => (available_pool i ht).1) ?_ ?_
            · intro t ht
              rcases List.mem_append.1 ht with ht | ht
              · rw [b1] at ht
                exact (q7 t (List.mem_of_mem_take ht)).1
              · exact hget t ht
            · rw [available_tags i]
              exact (List.nodup_append.1 i.core.tags_nodup).1
            · rw [available_tags i, List.map_append, available_tags i1, hix, b1]
              exact q4.symm
          · intro tx ht
            rw [b1] at ht
            rw [b3]
            exact (q7 tx (List.mem_of_mem_take ht)).2
          · intro tx ht rest hr hr1 hr2
            rw [b1] at ht
            rw [b3] at hr2
            have hr' := hrest'.mem_iff.2 (List.mem_filter.2 ⟨hr, by simp [hr1, hr2]⟩)
            have h3 := hfees
            rw [← List.take_append_drop cfg.limit txs, List.pairwise_append] at h3
            exact h3.2.2 tx ht rest hr'
          · intro hlt rest hr hcon
            rw [b3] at hcon
            have hr' := hrest'.mem_iff.2 (List.mem_filter.2 ⟨hr, by simpa using hcon⟩)
            rw [b1, List.length_take] at hlt
            have : txs.drop cfg.limit = [] := List.drop_eq_nil_of_le (by omega)
            rw [this] at hr'
            cases hr'
          · exact batchesOf_mem hbs rfl

example : (step cfg0 (run cfg0 (State.init bank0 links0) (ops0.take 4)).1 (.requestBatch 1 (.named 5) 50)).2.evs.map
    (fun e => match e with | .batch b => b.txs.map (·.fee) | _ => []) = [[9, 5]] := by decide +kernel

/-- A batch requested with explicit ids takes those withdrawals, in that order, up to the limit, and only waiting ones of
the token. -/
theorem batch_chosen_ids (h : Reachable cfg s) {hid : Nat} {d : Denom} {timeout : Nat} {ids : List Nat} {evs : List Ev}
    (hs : step cfg s (.requestBatchIds hid d timeout ids) = (s', .ok evs)) :
    ∃ b l, evs = [.batch b] ∧ linkByDenom s.links hid d = some l ∧ b.hid = hid ∧ b.token = l.addr ∧ b.timeout = timeout ∧
      b.txs ≠ [] ∧ b.txs.map (·.id) = ids.take cfg.limit ∧ (b.txs ++ available s').Perm (available s) ∧
      (∀ tx ∈ b.txs, tx.hid = hid ∧ tx.token = b.token) := by
  obtain ⟨sent, base, i⟩ := h.inv
  simp only [step] at hs
  cases hl : linkByDenom s.links hid d with
  | none => rw [hl] at hs; simp at hs
  | some l =>
    rw [hl] at hs
    simp only at hs
    cases hb : buildBatchIds cfg s hid l.addr timeout ids with
    | none => rw [hb] at hs; simp at hs
    | some r =>
      obtain ⟨s1, b⟩ := r
      rw [hb] at hs
      simp only [Prod.mk.injEq, Out.ok.injEq] at hs
      obtain ⟨rfl, rfl⟩ := hs
      have i1 := buildBatchIds_inv i hb
      unfold buildBatchIds at hb
      split at hb
      · cases hb
      · rename_i hlim
        split at hb
        · cases hb
        · rename_i ix' sel hp
          obtain ⟨q1, q2, q3, q4, q5, q6⟩ := pickIds_inv i hlim hp
          split at hb
          · cases hb
          · rename_i hne
            have hpool : s1.pool = s.pool := by cases hb; rfl
            have hix : s1.index = ix' := by cases hb; rfl
            have hbt : b.txs = sel ∧ b.hid = hid ∧ b.token = l.addr ∧ b.timeout = timeout := by
              cases hb
              exact ⟨rfl, rfl, rfl, rfl⟩
            obtain ⟨b1, b2, b3, b4⟩ := hbt
            refine ⟨b, l, rfl, rfl, b2, b3, b4, ?_, ?_, ?_, ?_⟩
            · rw [b1]
              intro hnil
              rw [hnil] at hne
              simp at hne
            · rw [b1, q4]
              by_cases hlt : sel.length < cfg.limit
              · have := q5 hlt
                rw [this, List.take_of_length_le (Nat.le_refl _), List.take_of_length_le (by omega)]
              · have : sel.length = cfg.limit := by omega
                rw [this]
            · refine perm_of_tags i ?_ (fun t ht => (available_pool i ht).1) ?_ ?_
              · intro t ht
                rcases List.mem_append.1 ht with ht | ht
                · rw [b1] at ht
                  exact (q6 t ht).1
                · rw [← hpool]
                  exact (available_pool i1 ht).1
              · rw [available_tags i]
                exact (List.nodup_append.1 i.core.tags_nodup).1
              · rw [available_tags i, List.map_append, available_tags i1, hix, b1]
                exact q3.symm
            · intro tx ht
              rw [b1] at ht
              rw [b3]
              exact (q6 tx ht).2

example : (step cfg0 (run cfg0 (State.init bank0 links0) (ops0.take 4)).1 (.requestBatchIds 1 (.named 5) 50 [4, 1])).2.evs.map
    (fun e => match e with | .batch b => b.txs.map (·.id) | _ => []) = [[4, 1]] := by decide +kernel

/-! ## No panics; timeouts are complete -/

/-- The only operation that can stop the chain is the execution of a batch whose orchestrator cannot be paid. -/
theorem never_panics (h : Reachable cfg s) (o : Op) (ho : ∀ a b c orch, o = .executed a b c orch → cfg.blocked orch = false) :
    (step cfg s o).2 ≠ .panic := by
  obtain ⟨sent, base, i⟩ := h.inv
  cases o with
  | send sender hid dest d amount feeDenom fee timeout => simp only [step]; split <;> simp
  | cancelSend sender hid id =>
    simp only [step]
    obtain ⟨s1, ok, h1, _⟩ := refund_inv cfg i hid id sender
    rw [h1]
    cases ok <;> simp
  | requestBatch hid d timeout =>
    simp only [step]
    split
    · simp
    · split <;> simp
  | requestBatchIds hid d timeout ids =>
    simp only [step]
    split
    · simp
    · split <;> simp
  | deposit hid addr amount receiver => simp only [step]; split <;> simp
  | executed hid token nonce orch =>
    simp only [step]
    obtain ⟨s1, h1, _⟩ := batchExecuted_inv i hid token nonce (ho _ _ _ _ rfl)
    rw [h1]
    simp
  | timeouts hid projected paused =>
    simp only [step]
    obtain ⟨s1, h1, _⟩ := timeouts_inv cfg i hid projected paused
    rw [h1]
    simp
  | cleanAll hid =>
    simp only [step]
    obtain ⟨s1, h1, _⟩ := cleanAll_inv cfg i hid
    rw [h1]
    simp
  | link hid addr d => simp only [step]; split <;> simp
  | transfer src dst d n => simp only [step]; split <;> simp
  | dataRequest origin hid contract fee => simp only [step]; split <;> simp
  | dataExecute hid nonce contract votes => simp [step]
  | dataTimeout hid nonce contract => simp [step]

/-- The excluded case does stop the chain. -/
theorem blocked_orchestrator_panics :
    (step cfg0 (run cfg0 (State.init bank0 links0) (ops0.take 6)).1 (.executed 1 77 1 99)).2 = .panic := by decide +kernel

/-- After the end-of-block clean-up of a chain no batch and no waiting withdrawal of that chain is overdue. -/
theorem timeouts_complete (h : Reachable cfg s) (hid projected : Nat) (paused : Bool) :
    let s' := (step cfg s (.timeouts hid projected paused)).1
    (∀ e ∈ s'.batches, e.2.hid = hid → projected ≤ e.2.timeout ∧ paused = false) ∧
    (∀ tx ∈ available s', tx.hid = hid → projected ≤ tx.timeout ∧ paused = false) := by
  obtain ⟨sent, base, i⟩ := h.inv
  obtain ⟨s1, h1, i1, _⟩ := timeouts_inv cfg i hid projected paused
  simp only [step, h1]
  obtain ⟨_, h2, h3⟩ := timeouts_spec cfg i h1
  refine ⟨?_, ?_⟩
  · intro e he hh
    have := h2 e he hh
    simpa using this
  · intro tx ht hh
    obtain ⟨g1, g2⟩ := available_pool i1 ht
    have := h3 tx g1 g2 hh
    simpa using this

/-- The end-of-block clean-up touches only what is overdue on its chain: all other batches stay as they are, all other
withdrawals stay pending. -/
theorem timeouts_only_overdue (h : Reachable cfg s) (hid projected : Nat) (paused : Bool) :
    let s' := (step cfg s (.timeouts hid projected paused)).1
    (∀ e ∈ s.batches, e.2.hid ≠ hid ∨ (projected ≤ e.2.timeout ∧ paused = false) → e ∈ s'.batches) ∧
    (∀ tx ∈ available s ++ batched s, tx.hid ≠ hid ∨ (projected ≤ tx.timeout ∧ paused = false) →
      tx ∈ available s' ++ batched s') := by
  obtain ⟨sent, base, i⟩ := h.inv
  obtain ⟨s1, h1, i1, _⟩ := timeouts_inv cfg i hid projected paused
  simp only [step, h1]
  obtain ⟨h2, h3⟩ := timeouts_keeps i h1
  have aux : ∀ {x t : Nat}, x ≠ hid ∨ (projected ≤ t ∧ paused = false) →
      ¬ (x = hid ∧ (decide (t < projected) || paused) = true) := by
    intro x t hor hand
    rcases hor with hor | ⟨ha, hb⟩
    · exact hor hand.1
    · have := hand.2
      rw [hb, Bool.or_false, decide_eq_true_eq] at this
      omega
  refine ⟨fun e he hor => h3 e he (aux hor), ?_⟩
  intro tx ht hor
  obtain ⟨e, he, rfl⟩ := List.mem_map.1 ((pool_places i).mem_iff.2 ht)
  exact (pool_places i1).mem_iff.1 (List.mem_map_of_mem (f := (·.2)) (h2 e he (aux hor)))

/-- After the reset of a chain nothing of that chain is pending. -/
theorem reset_complete (h : Reachable cfg s) (hid : Nat) :
    ∀ tx ∈ available (step cfg s (.cleanAll hid)).1 ++ batched (step cfg s (.cleanAll hid)).1, tx.hid ≠ hid := by
  obtain ⟨sent, base, i⟩ := h.inv
  obtain ⟨s1, h1, i1, _⟩ := cleanAll_inv cfg i hid
  simp only [step, h1]
  obtain ⟨_, h2⟩ := cleanAll_spec cfg i h1
  intro tx ht
  have := (pool_places i1).mem_iff.2 ht
  obtain ⟨e, he, rfl⟩ := List.mem_map.1 this
  exact h2 e he

example : ((available (run cfg0 (State.init bank0 links0) (ops0.take 5)).1).map (·.id),
    (batched (run cfg0 (State.init bank0 links0) (ops0.take 5)).1).map (·.id)) = ([4, 1], [2, 3]) := by decide +kernel

end Hyperion
