import Verif.Rpc.LogsLemmas

/-!
# Queries for logs give the matching logs, except at the edges
-/

namespace LogQuery

/-- Bits for the examples. -/
def demoMask : Item → Nat
  | .address a => 2 ^ (a % 7) ||| 2 ^ (a % 11) ||| 2 ^ (a % 13)
  | .topic t => 2 ^ (7 + t % 5) ||| 2 ^ (t % 19) ||| 2 ^ (t % 23)

/-- Three blocks: two transactions in block 1, one (with failed hooks) in block 2, none in block 3,
which has a scheduled call. -/
def demoChain : Chain where
  base := 1
  head := 3
  txs := fun h => match h with
    | 1 => [⟨[⟨1, 10, [100, 200], 0⟩, ⟨1, 11, [100], 1⟩], true⟩, ⟨[⟨1, 10, [101], 2⟩], true⟩]
    | 2 => [⟨[⟨2, 10, [100], 3⟩], false⟩]
    | _ => []
  cron := fun h => match h with
    | 3 => [⟨3, 10, [100], 4⟩, ⟨3, 12, [], 5⟩]
    | _ => []
  heightOf := fun x => if x = 77 then some 3 else if x = 78 then some 1 else none

/-- Logs of address 10 with first topic 100. -/
def demoCriteria : Criteria := ⟨[10], [[100]]⟩

/-- **Filter.** Without bounds on the blocks the filter keeps exactly the logs that match, in
order. -/
theorem filter_exact (c : Criteria) (ls : List Log) : Picked c ls (filterLogs none none c ls) :=
  filter_picked c ls

example : filterLogs none none ⟨[], [[], [200]]⟩
    [⟨1, 10, [100, 200], 0⟩, ⟨1, 10, [100], 1⟩, ⟨1, 10, [200], 2⟩] = [⟨1, 10, [100, 200], 0⟩] := by
  decide +kernel

/-- **Bounds of the filter.** With bounds it keeps those that match and lie within the bounds that
are not negative. -/
theorem filter_bounds (f t : Int) (c : Criteria) (ls : List Log) (l : Log) :
    l ∈ filterLogs (some f) (some t) c ls ↔
      l ∈ ls ∧ Matches c l ∧ (0 ≤ f → f ≤ l.block) ∧ (0 ≤ t → (l.block : Int) ≤ t) := by
  induction ls with
  | nil => exact ⟨fun h => absurd h List.not_mem_nil, fun h => absurd h.1 List.not_mem_nil⟩
  | cons x xs ih =>
    have hk : keeps (some f) (some t) c x = true ↔
        Matches c x ∧ (0 ≤ f → f ≤ x.block) ∧ (0 ≤ t → (x.block : Int) ≤ t) := by
      unfold keeps
      dsimp only
      by_cases h1 : 0 ≤ f ∧ (x.block : Int) < f
      · rw [if_pos h1]
        exact ⟨(fun h => nomatch h), fun h => absurd (h.2.1 h1.1) (by omega)⟩
      · rw [if_neg h1]
        unfold keeps.tail
        dsimp only
        by_cases h2 : 0 ≤ t ∧ t < (x.block : Int)
        · rw [if_pos h2]
          exact ⟨(fun h => nomatch h), fun h => absurd (h.2.2 h2.1) (by omega)⟩
        · rw [if_neg h2, body_iff]
          exact ⟨fun h => ⟨h, by omega, by omega⟩, fun h => h.1⟩
    unfold filterLogs
    by_cases h : keeps (some f) (some t) c x = true
    · rw [if_pos h, List.mem_cons, List.mem_cons, ih]
      constructor
      · rintro (rfl | h1)
        · exact ⟨Or.inl rfl, hk.1 h⟩
        · exact ⟨Or.inr h1.1, h1.2⟩
      · rintro ⟨rfl | h1, h2⟩
        · exact Or.inl rfl
        · exact Or.inr ⟨h1, h2⟩
    · rw [if_neg h, ih, List.mem_cons]
      constructor
      · exact fun h1 => ⟨Or.inr h1.1, h1.2⟩
      · rintro ⟨rfl | h1, h2⟩
        · exact absurd (hk.2 h2) h
        · exact ⟨h1, h2⟩

example : filterLogs (some 2) (some (-1)) ⟨[10], []⟩
    [⟨1, 10, [], 0⟩, ⟨2, 10, [], 1⟩, ⟨3, 11, [], 2⟩, ⟨4, 10, [], 3⟩] =
    [⟨2, 10, [], 1⟩, ⟨4, 10, [], 3⟩] := by decide +kernel

/-- **The bloom filter loses nothing.** Whatever bits stand for addresses and topics, the logs found
in a block are exactly the matching ones of its transactions, in order. -/
theorem block_logs_exact (mask : Item → Nat) (ch : Chain) (c : Criteria) (h : Nat) :
    Picked c (((ch.txs h).map reported).flatten) (blockLogs mask ch c h) :=
  blockLogs_picked mask ch c h

example : blockLogs demoMask demoChain demoCriteria 1 = [⟨1, 10, [100, 200], 0⟩] ∧
    blockBloom demoMask (demoChain.txs 1) ≠ 0 ∧
    bloomFilter demoMask (blockBloom demoMask (demoChain.txs 1)) ⟨[12], []⟩ = false := by
  decide +kernel

/-- **Ranges, as far as it goes.** The full property is: a query for a range of blocks gives the
matching logs of those blocks of the range that exist, or an error if they are too many. It is
proved for ranges of blocks the node has; there it gives exactly the matching logs of the
transactions and scheduled calls, block by block, and an error exactly if they are more than the
limit. It fails for ranges that go past the last block (`past_the_head_nothing_is_found`). -/
theorem range_exact_partial (mask : Item → Nat) (ch : Chain) (c : Criteria) (logLimit : Nat)
    (blockLimit f t : Int) (a b : Nat) (ha : actual ch f = a) (hb : actual ch t = b)
    (h1 : ch.base ≤ a) (h2 : a ≤ b) (h3 : b ≤ ch.head) (h4 : (b : Int) - a ≤ blockLimit) :
    ∃ got, Picked c (logsFrom ch a (b + 1 - a)) got ∧
      rangeLogs mask ch c logLimit blockLimit f t =
        if got.length ≤ logLimit then .logs got else .error := by
  obtain ⟨got, hp, hs⟩ := scan_there mask ch c logLimit (b + 1 - a) a [] h1 (by omega)
  refine ⟨got, hp, ?_⟩
  unfold rangeLogs
  have hl : lastHeight ch b = b := by
    unfold lastHeight overhang
    rw [if_neg (by omega)]
  have hn : ((b : Int) + 1 - a).toNat = b + 1 - a := by omega
  rw [ha, hb, if_neg (by omega), if_neg (by omega), hl, hn, hs, List.nil_append, List.length_nil,
    Nat.zero_add]
  have : ¬ b + 1 - a = 0 := by omega
  by_cases hg : got.length ≤ logLimit
  · rw [if_pos (Or.inr hg), if_pos hg]
  · rw [if_neg (fun h => h.elim this hg), if_neg hg]

example : actual demoChain 0 = (1 : Nat) ∧ actual demoChain (-1) = (3 : Nat) ∧
    rangeLogs demoMask demoChain demoCriteria 100 100 0 (-1) =
      .logs [⟨1, 10, [100, 200], 0⟩, ⟨3, 10, [100], 4⟩] ∧
    rangeLogs demoMask demoChain demoCriteria 1 100 0 (-1) = .error := by decide +kernel

/-- What the query gives does not depend on the bits of the bloom filter. -/
theorem range_without_bloom (mask mask' : Item → Nat) (ch : Chain) (c : Criteria) (logLimit : Nat)
    (blockLimit f t : Int) (a b : Nat) (ha : actual ch f = a) (hb : actual ch t = b)
    (h1 : ch.base ≤ a) (h2 : a ≤ b) (h3 : b ≤ ch.head) (h4 : (b : Int) - a ≤ blockLimit) :
    rangeLogs mask ch c logLimit blockLimit f t = rangeLogs mask' ch c logLimit blockLimit f t := by
  obtain ⟨g1, p1, e1⟩ := range_exact_partial mask ch c logLimit blockLimit f t a b ha hb h1 h2 h3 h4
  obtain ⟨g2, p2, e2⟩ := range_exact_partial mask' ch c logLimit blockLimit f t a b ha hb h1 h2 h3 h4
  rw [e1, e2, picked_unique p1 p2]

example : actual demoChain 1 = (1 : Nat) ∧ actual demoChain 3 = (3 : Nat) ∧ demoChain.base ≤ 1 ∧
    3 ≤ demoChain.head := by decide

/-- **Too wide, too late.** A range wider than the limit is refused; one that starts after the last
block is empty. -/
theorem range_refused (mask : Item → Nat) (ch : Chain) (c : Criteria) (logLimit : Nat)
    (blockLimit f t : Int) :
    (actual ch t - actual ch f > blockLimit →
      rangeLogs mask ch c logLimit blockLimit f t = .error) ∧
    (actual ch t - actual ch f ≤ blockLimit → actual ch f > ch.head →
      rangeLogs mask ch c logLimit blockLimit f t = .logs []) := by
  unfold rangeLogs
  constructor
  · intro h
    rw [if_pos h]
  · intro h1 h2
    rw [if_neg (by omega), if_pos h2]

example : rangeLogs demoMask demoChain demoCriteria 100 1 1 3 = .error ∧
    rangeLogs demoMask demoChain demoCriteria 100 10 4 9 = .logs [] := by decide +kernel

/-- **Past the last block nothing is found.** A query for a range that starts at a block the node
has and ends after the last block never gives a log, whatever matches: it gives an empty list, or an
error. -/
theorem past_the_head_nothing_is_found (mask : Item → Nat) (ch : Chain) (c : Criteria)
    (logLimit : Nat) (blockLimit f t : Int) (h1 : (ch.base : Int) ≤ actual ch f)
    (h2 : actual ch f ≤ ch.head) (h3 : ch.head < actual ch t) :
    rangeLogs mask ch c logLimit blockLimit f t = .logs [] ∨
      rangeLogs mask ch c logLimit blockLimit f t = .error := by
  unfold rangeLogs
  by_cases hw : actual ch t - actual ch f > blockLimit
  · rw [if_pos hw]
    exact Or.inr rfl
  · rw [if_neg hw, if_neg (by omega)]
    have hl : (ch.head : Int) < lastHeight ch (actual ch t) := by
      unfold lastHeight overhang
      split <;> omega
    generalize hf : actual ch f = a at *
    obtain ⟨n, rfl⟩ : ∃ n : Nat, a = n := ⟨a.toNat, by omega⟩
    exact scan_past mask ch c logLimit _ n [] (by omega) (by omega) (by omega)

/-- The same query with the last block as its end, and with the block after it. -/
theorem logs_lost_past_the_head :
    rangeLogs demoMask demoChain demoCriteria 100 100 1 3 =
      .logs [⟨1, 10, [100, 200], 0⟩, ⟨3, 10, [100], 4⟩] ∧
    rangeLogs demoMask demoChain demoCriteria 100 100 1 4 = .logs [] := by
  decide +kernel

/-- **Blocks the node has dropped.** A query for a range that starts before the first block the node
has gives an empty list and not an error. -/
theorem dropped_blocks_hide_all (mask : Item → Nat) (ch : Chain) (c : Criteria) (logLimit : Nat)
    (blockLimit f t : Int) (h1 : actual ch f < ch.base) (h2 : actual ch f ≤ ch.head)
    (h3 : actual ch f ≤ actual ch t) (h4 : actual ch t - actual ch f ≤ blockLimit) :
    rangeLogs mask ch c logLimit blockLimit f t = .logs [] := by
  unfold rangeLogs
  rw [if_neg (by omega), if_neg (by omega)]
  have hl : actual ch f ≤ lastHeight ch (actual ch t) := by
    unfold lastHeight overhang
    split <;> omega
  obtain ⟨n, hn⟩ : ∃ n, (lastHeight ch (actual ch t) + 1 - actual ch f).toNat = n + 1 :=
    ⟨(lastHeight ch (actual ch t) - actual ch f).toNat, by omega⟩
  rw [hn]
  unfold scan
  have hres : ¬ hasResults ch (actual ch f) = true := fun h => by
    have := of_decide_eq_true h
    omega
  rw [if_neg hres]

example : rangeLogs demoMask { demoChain with base := 2 } demoCriteria 100 100 1 3 = .logs [] ∧
    rangeLogs demoMask { demoChain with base := 2 } demoCriteria 100 100 2 3 =
      .logs [⟨3, 10, [100], 4⟩] := by decide +kernel

/-- **One block by its hash, as far as it goes.** The full property is: the query gives the matching
logs of that block. It is proved for the logs of its transactions only; those of its scheduled calls
are missing (`scheduled_calls_missing_by_hash`). -/
theorem hash_exact_partial (mask : Item → Nat) (ch : Chain) (c : Criteria) (hash h : Nat)
    (hh : ch.heightOf hash = some h) (h1 : ch.base ≤ h) (h2 : h ≤ ch.head) :
    ∃ got, Picked c (((ch.txs h).map reported).flatten) got ∧
      hashLogs mask ch c hash = .logs got := by
  refine ⟨_, blockLogs_picked mask ch c h, ?_⟩
  unfold hashLogs
  rw [hh]
  dsimp only
  have hres : hasResults ch (h : Int) = true := decide_eq_true (by omega)
  rw [if_pos hres]

example : demoChain.heightOf 78 = some 1 ∧
    hashLogs demoMask demoChain demoCriteria 78 = .logs [⟨1, 10, [100, 200], 0⟩] := by
  decide +kernel

/-- A log of a scheduled call is found by the number of its block and not by its hash. -/
theorem scheduled_calls_missing_by_hash :
    demoChain.heightOf 77 = some 3 ∧
    rangeLogs demoMask demoChain demoCriteria 100 100 3 3 = .logs [⟨3, 10, [100], 4⟩] ∧
    hashLogs demoMask demoChain demoCriteria 77 = .logs [] := by
  decide +kernel

/-- A hash the node does not know crashes the handler. -/
theorem unknown_hash_crashes (mask : Item → Nat) (ch : Chain) (c : Criteria) (hash : Nat)
    (h : ch.heightOf hash = none) : hashLogs mask ch c hash = .crash := by
  unfold hashLogs
  rw [h]

example : demoChain.heightOf 5 = none := by decide

end LogQuery
