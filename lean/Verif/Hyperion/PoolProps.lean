import Verif.Hyperion.PoolLemmas8
/-!
# Theorems about the outgoing side of the bridge
-/
namespace Hyperion
open StableSort

variable {cfg : Cfg} {s s' : State}

/-! ## A sample history -/

/-- Two users with coins. -/
def bank0 : Bank :=
  { bal := fun a d => match a, d with
      | .user _, .named _ => 1000
      | _, _ => 0
    supply := fun _ => 5000 }

/-- A coin of this chain that contract 77 stands for on chain 1. -/
def links0 : List Link := [{ hid := 1, addr := 77, denom := .named 5, originated := false, locked := 0 }]

/-- Batches of at most two; account 99 cannot be paid. -/
def cfg0 : Cfg := { limit := 2, blocked := fun a => decide (a = 99) }

/-- Three withdrawals, a batch, a cancelled withdrawal, the execution of the batch. -/
def ops0 : List Op :=
  [.send 1 1 11 (.named 5) 10 ahelios 3 100, .send 2 1 12 (.named 5) 20 ahelios 9 100,
   .send 1 1 13 (.named 5) 30 ahelios 5 100, .send 2 1 14 (.named 5) 40 ahelios 1 100, .requestBatch 1 (.named 5) 50,
   .cancelSend 1 1 1, .executed 1 77 1 8, .deposit 1 77 15 (some 3), .deposit 1 88 15 (some 3), .timeouts 1 20 false]

example : LinksOk links0 := by decide
example : (run cfg0 (State.init bank0 links0) ops0).2.filter (fun o => decide (o = .err)) = [] := by decide +kernel
example : ((available (run cfg0 (State.init bank0 links0) ops0).1).map (·.id),
    (endedAs (run cfg0 (State.init bank0 links0) ops0).1 .executed).map (·.id),
    (endedAs (run cfg0 (State.init bank0 links0) ops0).1 .refunded).map (·.id)) = ([4], [2, 3], [1]) := by decide +kernel

/-! ## C21: where a withdrawal is -/

/-- At every moment the accepted withdrawals are, each exactly once: waiting, in a batch, ended, or lost (a refund that
failed after the withdrawal had been removed); and no two withdrawals share an id. -/
theorem withdrawal_places (cfg : Cfg) (bank : Bank) {links : List Link} (hl : LinksOk links) (ops : List Op) :
    let s := (run cfg (State.init bank links) ops).1
    let evs := events (run cfg (State.init bank links) ops).2
    (available s ++ batched s ++ s.finalized.map (·.1) ++ s.lost.map (·.1)).Perm (sentIn evs) ∧
    ((sentIn evs).map (·.id)).Nodup := by
  intro s evs
  have i := run_inv cfg ops (Inv.init bank hl)
  simp only [List.nil_append] at i
  refine ⟨?_, ?_⟩
  · refine List.Perm.trans ?_ i.acc
    exact ((pool_places i).symm.append_right _).append_right _
  · show ((sentIn evs).map (·.id)).Nodup
    rw [i.ids]
    exact List.nodup_range' (step := 1)

/-- In an honest environment nothing is lost: every accepted withdrawal is in exactly one of: waiting, one batch, ended.
The full property would hold for every environment; `withdrawal_can_be_lost` shows that it does not. -/
theorem withdrawal_in_one_place_partial (cfg : Cfg) (bank : Bank) {links : List Link} (hl : LinksOk links) (ops : List Op)
    (hh : honestRun cfg (State.init bank links) ops = true) :
    let s := (run cfg (State.init bank links) ops).1
    (available s ++ batched s ++ s.finalized.map (·.1)).Perm (sentIn (events (run cfg (State.init bank links) ops).2)) ∧
    ((available s ++ batched s ++ s.finalized.map (·.1)).map (·.id)).Nodup := by
  intro s
  obtain ⟨h1, h2⟩ := withdrawal_places cfg bank hl ops
  have hlost : s.lost = [] := run_safe ops (Inv.init bank hl)
    ⟨fun _ _ _ _ _ => Nat.zero_le _, fun e he => absurd he List.not_mem_nil⟩ hh
  have h3 : (available s ++ batched s ++ s.finalized.map (·.1)).Perm
      (sentIn (events (run cfg (State.init bank links) ops).2)) := by
    have h4 : (available s ++ batched s ++ s.finalized.map (·.1) ++ s.lost.map (·.1)).Perm
      (sentIn (events (run cfg (State.init bank links) ops).2)) := h1
    rw [hlost, List.map_nil, List.append_nil] at h4
    exact h4
  exact ⟨h3, ((h3.map (·.id)).nodup_iff).2 h2⟩

example : honestRun cfg0 (State.init bank0 links0) ops0 = true := by decide +kernel

/-- The query for the waiting withdrawals of a chain answers, and lists exactly those. -/
theorem pool_query (h : Reachable cfg s) (hid : Nat) :
    ∃ txs, poolTxs s hid = some txs ∧ txs.Perm ((available s).filter (fun tx => decide (tx.hid = hid))) := by
  obtain ⟨sent, base, i⟩ := h.inv
  exact poolTxs_available i hid

example : Reachable cfg0 (run cfg0 (State.init bank0 links0) ops0).1 := ⟨bank0, links0, ops0, by decide, rfl⟩

/-- A withdrawal can disappear: while it is pending, a deposit brings back the coins it will take out; when it times out,
the locked amount no longer covers the refund, and it has already been removed. -/
theorem withdrawal_can_be_lost :
    ∃ tx, sentIn (events (run cfg0 (State.init bank0 links0)
        [.send 1 1 11 (.named 5) 10 ahelios 3 100, .deposit 1 77 4 (some 2), .timeouts 1 200 false]).2) = [tx] ∧
      available (run cfg0 (State.init bank0 links0)
        [.send 1 1 11 (.named 5) 10 ahelios 3 100, .deposit 1 77 4 (some 2), .timeouts 1 200 false]).1 = [] ∧
      batched (run cfg0 (State.init bank0 links0)
        [.send 1 1 11 (.named 5) 10 ahelios 3 100, .deposit 1 77 4 (some 2), .timeouts 1 200 false]).1 = [] ∧
      (run cfg0 (State.init bank0 links0)
        [.send 1 1 11 (.named 5) 10 ahelios 3 100, .deposit 1 77 4 (some 2), .timeouts 1 200 false]).1.finalized = [] ∧
      (run cfg0 (State.init bank0 links0)
        [.send 1 1 11 (.named 5) 10 ahelios 3 100, .deposit 1 77 4 (some 2), .timeouts 1 200 false]).1.bank.bal
        (.user 1) (.named 5) = 990 :=
  ⟨{ id := 1, sender := 1, hid := 1, dest := 11, token := 77, amount := 10, fee := 3, timeout := 100 }, by decide +kernel⟩

/-! ## C22: how a withdrawal ends -/

/-- No withdrawal ends twice, and an ended withdrawal is neither waiting nor in a batch. -/
theorem ends_once_partial (cfg : Cfg) (bank : Bank) {links : List Link} (hl : LinksOk links) (ops : List Op) :
    let s := (run cfg (State.init bank links) ops).1
    (s.finalized.map (fun e => e.1.id)).Nodup ∧
    (∀ e ∈ s.finalized, ∀ tx ∈ available s ++ batched s, tx.id ≠ e.1.id) ∧
    (∀ e ∈ s.finalized, e.1 ∈ sentIn (events (run cfg (State.init bank links) ops).2)) := by
  intro s
  obtain ⟨h1, h2⟩ := withdrawal_places cfg bank hl ops
  have h1 : (available s ++ batched s ++ s.finalized.map (·.1) ++ s.lost.map (·.1)).Perm
    (sentIn (events (run cfg (State.init bank links) ops).2)) := h1
  have h3 := ((h1.map (·.id)).nodup_iff).2 h2
  rw [List.map_append] at h3
  have h4 := (List.nodup_append.1 h3).1
  rw [List.map_append] at h4
  obtain ⟨_, h6, h7⟩ := List.nodup_append.1 h4
  refine ⟨?_, ?_, ?_⟩
  · rw [List.map_map] at h6
    exact h6
  · intro e he tx ht heq
    exact h7 tx.id (List.mem_map_of_mem (f := (·.id)) ht) e.1.id (by
      rw [List.map_map]
      exact List.mem_map_of_mem (f := (fun e : Tx × Ended => e.1.id)) he) heq
  · intro e he
    exact h1.mem_iff.1 (List.mem_append_left _ (List.mem_append_right _ (List.mem_map_of_mem (f := (·.1)) he)))

/-- What the record of ended withdrawals and the balances of the users look like after refunds `new`. -/
def RefundsExactly (s s' : State) (new : List Tx) : Prop :=
  endedAs s' .refunded = new ++ endedAs s .refunded ∧ endedAs s' .executed = endedAs s .executed ∧
    ∀ u d, s'.bank.bal (.user u) d = s.bank.bal (.user u) d + refundTo s'.links u d new

/-- Cancelling a withdrawal succeeds only for the sender of a waiting withdrawal; it pays back exactly amount and fee, to
nobody else, and the withdrawal is gone from every place it could be taken from again. -/
theorem cancel_send (h : Reachable cfg s) {sender hid id : Nat} {evs : List Ev}
    (hs : step cfg s (.cancelSend sender hid id) = (s', .ok evs)) :
    ∃ tx ∈ available s, tx.hid = hid ∧ tx.id = id ∧ tx.sender = sender ∧ RefundsExactly s s' [tx] ∧
      tx ∉ available s' ++ batched s' := by
  obtain ⟨sent, base, i⟩ := h.inv
  simp only [step] at hs
  obtain ⟨s1, ok, h1, i1, hp⟩ := refund_inv cfg i hid id sender
  rw [h1] at hs
  cases ok with
  | false => simp at hs
  | true =>
    simp only [Prod.mk.injEq] at hs
    obtain ⟨rfl, _⟩ := hs
    rcases refund_cases cfg i hid id sender h1 with ⟨_, h2⟩ | ⟨tx, ix, c1, c2, c3, c4, c5, c6, c7⟩
    · cases h2
    · refine ⟨tx, (available_iff i).2 ⟨c1, c5⟩, c2, c3, c4, ?_, ?_⟩
      · obtain ⟨_, new, p1, p2, p3⟩ := hp
        have hnew : endedAs s1 .refunded = tx :: endedAs s .refunded := by
          unfold payRefund at c7
          split at c7
          · cases c7
          · dsimp only at c7
            split at c7
            · cases c7
            · split at c7
              · cases c7
              · split at c7
                · cases c7
                · cases c7
                  rfl
        have hn : new = [tx] := by
          rw [hnew] at p1
          exact List.append_cancel_right (as := new) (bs := endedAs s .refunded) (cs := [tx]) (by simpa using p1.symm)
        subst hn
        exact ⟨p1, p2, p3⟩
      · intro hmem
        have hg : KV.get s1.pool (tx.hid, tx.id) = some tx := by
          rcases List.mem_append.1 hmem with hm | hm
          · exact (available_pool i1 hm).1
          · exact batched_pool i1 hm
        obtain ⟨f1, _⟩ := payRefund_frame cfg { s with index := ix, pool := KV.del s.pool (tx.hid, tx.id) } tx
        rw [← c7] at f1
        simp only at f1
        rw [f1, KV.get_del, if_pos rfl] at hg
        cases hg

example : (step cfg0 (run cfg0 (State.init bank0 links0) (ops0.take 5)).1 (.cancelSend 1 1 1)).2 = .ok [] := by decide +kernel
example : (step cfg0 (run cfg0 (State.init bank0 links0) (ops0.take 5)).1 (.cancelSend 2 1 1)).2 = .err := by decide +kernel
example : (step cfg0 (run cfg0 (State.init bank0 links0) (ops0.take 5)).1 (.cancelSend 1 1 3)).2 = .err := by decide +kernel

/-- The refunds at the end of a block pay exactly the senders of the refunded withdrawals, each of which was pending. -/
theorem timeouts_refund (h : Reachable cfg s) (hid projected : Nat) (paused : Bool) :
    ∃ new, RefundsExactly s (step cfg s (.timeouts hid projected paused)).1 new ∧
      ∀ tx ∈ new, tx ∈ available s ++ batched s := by
  obtain ⟨sent, base, i⟩ := h.inv
  obtain ⟨s1, h1, i1, hp⟩ := timeouts_inv cfg i hid projected paused
  obtain ⟨_, new, p1, p2, p3⟩ := hp
  simp only [step, h1]
  refine ⟨new, ⟨p1, p2, p3⟩, ?_⟩
  intro tx ht
  refine (pool_places i).mem_iff.1 ?_
  have hsent : tx ∈ sent := i1.fin_sent (endedAs_sub (by rw [p1]; exact List.mem_append_left _ ht))
  rcases List.mem_append.1 (i.acc.mem_iff.2 hsent) with hm | hm
  · rcases List.mem_append.1 hm with hm | hm
    · exact hm
    · exfalso
      -- it ended before as well: the ids of the ended withdrawals repeat
      have hnd : ((s1.pool.map (·.2) ++ s1.finalized.map (·.1) ++ s1.lost.map (·.1)).map (·.id)).Nodup := by
        rw [(i1.acc.map (·.id)).nodup_iff, i1.ids]
        exact List.nodup_range' (step := 1)
      have hfin : (s1.finalized.map (·.1)).Nodup := by
        rw [List.map_append, List.map_append] at hnd
        exact nodup_of_map (List.nodup_append.1 (List.nodup_append.1 hnd).1).2.1
      have hsplit : ∀ l : List (Tx × Ended), (l.map (·.1)).Perm
          (((l.filter (fun e => decide (e.2 = Ended.refunded))).map (·.1)) ++
            ((l.filter (fun e => decide (e.2 = Ended.executed))).map (·.1))) := by
        intro l
        induction l with
        | nil => exact .refl _
        | cons e l ih =>
          cases he : e.2 with
          | refunded =>
            rw [List.filter_cons_of_pos (by simp [he]), List.filter_cons_of_neg (by simp [he])]
            simp only [List.map_cons, List.cons_append]
            exact ih.cons _
          | executed =>
            rw [List.filter_cons_of_neg (by simp [he]), List.filter_cons_of_pos (by simp [he])]
            simp only [List.map_cons]
            exact (ih.cons _).trans List.perm_middle.symm
      have h2 := (hsplit s1.finalized).nodup_iff.1 hfin
      have h3 : (endedAs s1 .refunded ++ endedAs s1 .executed).Nodup := h2
      rw [p1, p2, List.append_assoc] at h3
      refine (List.nodup_append.1 h3).2.2 tx ht tx ?_ rfl
      exact (hsplit s.finalized).mem_iff.1 hm
  · exfalso
    -- it was lost before; lost withdrawals stay lost
    obtain ⟨e, he, rfl⟩ := List.mem_map.1 hm
    have hl1 := timeouts_lost i h1 he
    have hnd : ((s1.pool.map (·.2) ++ s1.finalized.map (·.1)) ++ s1.lost.map (·.1)).Nodup := by
      refine nodup_of_map (f := (·.id)) ?_
      rw [(i1.acc.map (·.id)).nodup_iff, i1.ids]
      exact List.nodup_range' (step := 1)
    refine (List.nodup_append.1 hnd).2.2 e.1 ?_ e.1 (List.mem_map_of_mem (f := (·.1)) hl1) rfl
    exact List.mem_append_right _ (endedAs_sub (r := .refunded) (by rw [p1]; exact List.mem_append_left _ ht))

example : (endedAs (step cfg0 (run cfg0 (State.init bank0 links0) (ops0.take 5)).1 (.timeouts 1 101 false)).1 .refunded).length = 4 := by
  decide +kernel

end Hyperion
