import Verif.Rpc.ReceiptsLemmas
import Verif.Rpc.IndexProps
/-!
# C87: receipts tell what became of a transaction

Full statement: for every Ethereum transaction of the chain, the receipt by its hash and the receipt in
the list of its block both say whether it succeeded, the gas it used, the gas used in the block up to it,
its logs and its place; and they are equal.

The receipt by hash does (`receipt_exact`). The receipts of a block do not: see `block_receipts_never_fail`,
`reverted_shown_as_success` and the theorems after it.
-/

namespace EthIndex

/-- **C87 (by hash).** The receipt of an Ethereum transaction of an indexed block says what it should. -/
theorem receipt_exact (chain : Nat → List Step) (hf : ∀ h, Fits (chain h)) (db : DB) (lo hi h : Nat)
    (hx : Exact chain db lo hi) (h1 : lo < h) (h2 : h ≤ hi) (k : Nat) (p : Place)
    (hp : (places 0 (chain h))[k]? = some p) :
    receipt db (ran chain) p.m.hash = some (ideal h k (chain h) p) := by
  obtain ⟨s, idx, e1, e2, e3, e4, _, _, _⟩ := place_result (chain h) (hf h).1 k p hp
  obtain ⟨t, res, l1, l2⟩ := place_logs (chain h) (hf h).1 k p hp
  have e5 : s.tx.msgs[p.msg]? = some (some p.m) := by rw [e4, List.getElem?_map, e3]; rfl
  rw [e2] at l1
  obtain ⟨rfl, rfl⟩ := Prod.mk.inj (Option.some.inj l1)
  unfold receipt
  rw [(hx.1 h k p h1 h2 hp).1]
  show (match (execBlock 0 (chain h))[p.tx]? with
    | none => none
    | some (t, res) => match t.msgs[p.msg]? with
      | some (some _) => some (⟨p.m.hash, !p.fails,
          (((execBlock 0 (chain h)).take p.tx).map (fun x : Tx × Result => x.2.gasUsed)).sum + (p.before + p.paid),
          (txLogs res.events p.msg).getD [], p.paid, h, k⟩ : Receipt)
      | _ => none) = _
  rw [e2]
  dsimp only
  rw [e5]
  dsimp only
  rw [l2, execBlock_gas, ← Nat.add_assoc]
  rfl

/-- A transaction that is in no indexed block has no receipt. -/
theorem receipt_only (chain : Nat → List Step) (db : DB) (lo hi : Nat) (hx : Exact chain db lo hi) (x : Nat)
    (hb : x < 256 ^ 32) (r : Receipt) (hr : receipt db (ran chain) x = some r) :
    ∃ (h k : Nat) (p : Place), lo < h ∧ h ≤ hi ∧ (places 0 (chain h))[k]? = some p ∧ p.m.hash = x := by
  unfold receipt at hr
  cases hg : byHash db x with
  | none => rw [hg] at hr; cases hr
  | some rec =>
    obtain ⟨h, k, p, a, b, c, d, _⟩ := hx.2.1 x rec hb hg
    exact ⟨h, k, p, a, b, c, d⟩

/-- The index of the chain of `IndexProps.lean` after its history. -/
def db1 : DB := (serveAll (ran chain1) (start [] 4) ops1).db

theorem exact_db1 : Exact chain1 db1 4 7 := by
  have h := (index_exact_partial chain1 fits_chain1 unique_chain1 4 (by decide) ops1
    ⟨by decide, rfl, ⟨by decide, .inl (by decide +kernel)⟩, rfl, by decide, rfl,
      ⟨by decide, .inl (by decide +kernel)⟩, rfl, trivial⟩).2
  rw [show (serveAll (ran chain1) (start [] 4) ops1).last = 7 by decide +kernel] at h
  exact h

example : receipt db1 (ran chain1) 8 = some ⟨8, false, 140000, [8], 30000, 5, 1⟩ ∧
    receipt db1 (ran chain1) 11 = some ⟨11, true, 230000, [1, 2], 50000, 5, 3⟩ ∧
    receipt db1 (ran chain1) 12 = some ⟨12, false, 50000, [], 50000, 6, 0⟩ := by decide +kernel

/-- The logs of a transaction are those of its receipt, if a failed one has none. -/
theorem logs_agree (chain : Nat → List Step) (hf : ∀ h, Fits (chain h)) (db : DB) (lo hi h : Nat)
    (hx : Exact chain db lo hi) (h1 : lo < h) (h2 : h ≤ hi) (k : Nat) (p : Place)
    (hp : (places 0 (chain h))[k]? = some p) (hl : p.m.error ≠ [] → p.m.logs = []) :
    logsOf db (ran chain) p.m.hash = (receipt db (ran chain) p.m.hash).map (·.logs) := by
  rw [receipt_exact chain hf db lo hi h hx h1 h2 k p hp]
  obtain ⟨s, idx, e1, e2, e3, e4, e7, _, e6⟩ := place_result (chain h) (hf h).1 k p hp
  unfold logsOf
  rw [(hx.1 h k p h1 h2 hp).1]
  show (if p.fails then some [] else match (execBlock 0 (chain h))[p.tx]? with
    | none => none
    | some (_, res) => txLogs res.events p.msg) = some (if p.ran then p.m.logs else [])
  cases hr : p.ran with
  | false => rw [if_pos (by unfold Place.fails; rw [hr]; rfl)]; rfl
  | true =>
    rcases e6 with ⟨_, hfate, _⟩ | ⟨hr', _⟩
    · by_cases he : p.m.error = []
      · rw [if_neg (by unfold Place.fails; rw [hr, he]; decide), e2]
        dsimp only
        rw [txLogs_exec idx s hfate e7 p.msg p.m e3, if_pos rfl]
      · rw [if_pos (by unfold Place.fails; rw [hr]; simp [he]), hl he, if_pos rfl]
    · rw [hr] at hr'; cases hr'

example : logsOf db1 (ran chain1) 11 = some [1, 2] ∧ logsOf db1 (ran chain1) 12 = some [] := by decide +kernel

/-- Along a block the cumulative gas grows by at least the gas of each receipt, where the gas of a
transaction's result covers what its messages pay. -/
theorem cumulative_grows (h : Nat) (ss : List Step) (hc : ∀ s ∈ ss, Covers s) (k k' : Nat) (hk : k < k')
    (p p' : Place) (hp : (places 0 ss)[k]? = some p) (hp' : (places 0 ss)[k']? = some p') :
    (ideal h k ss p).cumulative + (ideal h k' ss p').used ≤ (ideal h k' ss p').cumulative := by
  show gasBefore ss p.tx + p.before + p.paid + p'.paid ≤ gasBefore ss p'.tx + p'.before + p'.paid
  obtain ⟨s, h1, h2⟩ := before_paid ss hc 0 k p hp
  rw [Nat.sub_zero] at h1
  rcases places_order ss 0 k k' p p' hk hp hp' with hlt | ⟨heq, hle⟩
  · have := gasBefore_mono ss p.tx p'.tx s hlt h1
    omega
  · rw [← heq]; omega

/-- And it never passes the gas of the block. -/
theorem cumulative_bounded (h : Nat) (ss : List Step) (hc : ∀ s ∈ ss, Covers s) (k : Nat) (p : Place)
    (hp : (places 0 ss)[k]? = some p) : (ideal h k ss p).cumulative ≤ blockGas (execBlock 0 ss) := by
  show gasBefore ss p.tx + p.before + p.paid ≤ _
  obtain ⟨s, h1, h2⟩ := before_paid ss hc 0 k p hp
  rw [Nat.sub_zero] at h1
  have hlt : p.tx < ss.length := by rw [List.getElem?_eq_some_iff] at h1; exact h1.1
  have := gasBefore_mono ss p.tx ss.length s hlt h1
  have hb : blockGas (execBlock 0 ss) = gasBefore ss ss.length := by
    rw [← execBlock_gas ss 0]
    unfold blockGas
    rw [List.take_of_length_le (by rw [execBlock_length]; exact Nat.le_refl _)]
  rw [hb]
  omega

example : (∀ s ∈ block1, Covers s) ∧ (places 0 block1).length = 4 ∧ blockGas (execBlock 0 block1) = 230000 := by
  decide +kernel

/-! ## The receipts of a block -/

/-- **C87 (of a block, partial).** When no Ethereum transaction is in the block twice, the list has one
receipt for each of its Ethereum transactions, in their order, with the right hash, height, number and
logs. -/
theorem block_receipts_partial (h : Nat) (ss : List Step) (hs : ∀ s ∈ ss, Sound s) (hd : (allHashes ss).Nodup) :
    (blockReceipts h (execBlock 0 ss)).length = (places 0 ss).length ∧
    ∀ (k : Nat) (p : Place), (places 0 ss)[k]? = some p →
      ∃ r, (blockReceipts h (execBlock 0 ss))[k]? = some r ∧ r.hash = (ideal h k ss p).hash ∧
        r.height = (ideal h k ss p).height ∧ r.index = (ideal h k ss p).index ∧ r.logs = (ideal h k ss p).logs := by
  unfold blockReceipts
  rw [listing_exec ss 0 0 hs]
  obtain ⟨h1, h2⟩ := receiptLoop_places h ss hs hd (places 0 ss) 0 0 (fun k p hk => by rw [Nat.zero_add]; exact hk)
  refine ⟨h1, fun k p hk => ⟨_, h2 k p hk, rfl, rfl, ?_, rfl⟩⟩
  show 0 + k = k
  omega

/-- **C87 (of a block, partial).** The gas of a receipt is right for an executed transaction that is alone
in its Cosmos transaction. -/
theorem block_receipt_gas_partial (h : Nat) (ss : List Step) (hs : ∀ s ∈ ss, Sound s) (hd : (allHashes ss).Nodup)
    (k : Nat) (p : Place) (hp : (places 0 ss)[k]? = some p) (hr : p.ran = true)
    (hone : ∀ s, ss[p.tx]? = some s → s.tx.eths.length = 1) :
    ∃ r, (blockReceipts h (execBlock 0 ss))[k]? = some r ∧ r.used = (ideal h k ss p).used := by
  unfold blockReceipts
  rw [listing_exec ss 0 0 hs]
  obtain ⟨_, h2⟩ := receiptLoop_places h ss hs hd (places 0 ss) 0 0 (fun k p hk => by rw [Nat.zero_add]; exact hk)
  refine ⟨_, h2 k p hp, ?_⟩
  obtain ⟨s, idx, e1, _, e3, _, _, _, e6⟩ := place_result ss hs k p hp
  rcases e6 with ⟨_, _, hg⟩ | ⟨hr', _⟩
  · show stepGas ss p = p.paid
    unfold stepGas Place.paid
    rw [e1, hr, if_pos rfl]
    dsimp only
    rw [hg]
    have hl := hone s e1
    match hm : s.tx.eths, hl with
    | [m], _ =>
      rw [hm] at e3
      have : p.m = m := by
        cases hj : p.msg with
        | zero => rw [hj] at e3; simpa using e3.symm
        | succ j => rw [hj] at e3; simp at e3
      rw [this]; simp
  · rw [hr] at hr'; cases hr'

example : (∀ s ∈ block1, Sound s) ∧ (allHashes block1).Nodup ∧
    (blockReceipts 5 (execBlock 0 block1)).map (fun r => (r.hash, r.index)) = [(7, 0), (8, 1), (10, 2), (11, 3)] := by
  decide +kernel

/-- **C87 does not hold of the receipts of a block: status.** Whatever its transactions did, every receipt
of the list says success. -/
theorem block_receipts_never_fail (h : Nat) (ss : List Step) (hs : ∀ s ∈ ss, Sound s) (hd : (allHashes ss).Nodup)
    (k : Nat) (r : Receipt) (hr : (blockReceipts h (execBlock 0 ss))[k]? = some r) : r.success = true := by
  unfold blockReceipts at hr
  rw [listing_exec ss 0 0 hs] at hr
  obtain ⟨h1, h2⟩ := receiptLoop_places h ss hs hd (places 0 ss) 0 0 (fun k p hk => by rw [Nat.zero_add]; exact hk)
  have hk : k < (places 0 ss).length := by
    rw [← h1]
    rw [List.getElem?_eq_some_iff] at hr
    exact hr.1
  rw [h2 k _ (List.getElem?_eq_getElem hk)] at hr
  cases hr
  rfl

/-- A transaction that reverted: its receipt by hash says so, its receipt in the list of the block says
success. -/
theorem reverted_shown_as_success :
    ∃ (chain : Nat → List Step) (db : DB) (h : Nat), (∀ h, Fits (chain h)) ∧ Exact chain db 4 7 ∧
      (receipt db (ran chain) 8).map (·.success) = some false ∧
      ((blockReceipts h (ran chain h))[1]?).map (fun r => (r.hash, r.success)) = some (8, true) :=
  ⟨chain1, db1, 5, fits_chain1, exact_db1, by decide +kernel, by decide +kernel⟩

/-- **C87 does not hold of the receipts of a block: gas.** The cumulative gas leaves out transactions of
other kinds, and with several messages in a transaction each is shown with the gas of all of them. -/
theorem block_receipts_gas_wrong :
    (receipt db1 (ran chain1) 8).map (·.cumulative) = some 140000 ∧
    ((blockReceipts 5 (ran chain1 5))[1]?).map (·.cumulative) = some 60000 ∧
    (receipt db1 (ran chain1) 10).map (·.used) = some 40000 ∧
    ((blockReceipts 5 (ran chain1 5))[2]?).map (·.used) = some 90000 ∧
    ((blockReceipts 5 (ran chain1 5))[3]?).map (·.cumulative) = some 240000 ∧
    blockGas (ran chain1 5) = 230000 := by decide +kernel

/-- **C87 does not hold of the receipts of a block: repetition.** A transaction executed with success, put
into the block again and refused there, is shown as failed and without its logs. -/
theorem repeated_shown_as_failed :
    ∃ ss : List Step, (∀ s ∈ ss, Sound s) ∧ (places 0 ss).map (fun p => (p.m.hash, p.fails)) = [(7, false)] ∧
      (blockReceipts 5 (execBlock 0 ss)).map (fun r => (r.hash, r.success, r.logs)) = [(7, false, [])] :=
  ⟨[⟨tx1 7 [], .ok, 30000⟩, ⟨tx1 7 [], .refused false, 0⟩], by decide +kernel, by decide +kernel, by decide +kernel⟩

end EthIndex
