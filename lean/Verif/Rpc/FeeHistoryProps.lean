import Verif.Rpc.FeeHistoryLemmas
import Verif.Lib.Sort
/-!
# C91: the history of fees tells what the blocks had

Proved: the reward for a percentile is the tip at that share of the block's gas, in whatever order equal tips are
sorted, for percentiles in ascending order; and over any history of blocks and requests that are all for the same
percentiles, an answer has the base fee, the gas and the rewards of each of its blocks, the first of which is not
block zero.

Shown false: rewards after somebody has asked for other percentiles, or for percentiles not in order; the base fee
after the last block; blocks before the first; and a crash for great counts.
-/

namespace FeeHistory

/-- **C91 (rewards).** For percentiles in ascending order, the reward at each is the least tip with which that share
of the block's gas was used (the greatest tip if the block's transactions used less), however ties are sorted. -/
theorem rewards_exact (arrange : List (Nat × Int) → List (Nat × Int)) (hs : Sorts arrange) (i : Info) (ps : List Nat)
    (hp : ps.Pairwise (· ≤ ·)) : RewardsOf i ps (rewards arrange i ps) := by
  refine ⟨rewards_length arrange i ps, fun k p r hk hr => ?_⟩
  obtain ⟨hperm, hsort⟩ := hs i.items
  apply isReward_perm hperm
  unfold rewards at hr
  cases ha : arrange i.items with
  | nil =>
    rw [ha] at hr
    dsimp only at hr
    rw [List.getElem?_map, hk] at hr
    cases hr
    exact .inl ⟨rfl, rfl⟩
  | cons e rest =>
    rw [ha] at hr hsort
    dsimp only at hr
    have h := (rewardLoop_spec hsort (ps.map (needOf i.used)) [] rest e.1 e.2 rfl
      (by
        rw [List.pairwise_map]
        refine hp.imp fun {a b} hab => ?_
        unfold needOf
        exact Nat.div_le_div_right (Nat.mul_le_mul_left _ hab))
      (fun n _ => .inl rfl)).2 k (i.used * p / 100) r (by rw [List.getElem?_map, hk]; rfl)
    have hz : gasOf [] + e.1 = e.1 := Nat.zero_add _
    rw [hz] at h
    exact h hr

/-- Sorting by insertion. -/
def byTip : List (Nat × Int) → List (Nat × Int) := StableSort.sortBy fun a b => decide (a.2 ≤ b.2)

theorem byTip_sorts : Sorts byTip := by
  intro l
  refine ⟨StableSort.sortBy_perm _ l, ?_⟩
  have := StableSort.sortBy_pairwise (le := fun a b : Nat × Int => decide (a.2 ≤ b.2))
    (fun a b c h1 h2 => by
      rw [decide_eq_true_iff] at *
      omega)
    (fun a b => by
      rw [Bool.or_eq_true, decide_eq_true_iff, decide_eq_true_iff]
      omega) l
  exact this.imp fun {a b} h => of_decide_eq_true h

/-- A block with three payments, of tips 5, 1 and 9. -/
def busy : Info := ⟨1000, 100, 400, [(50, 5), (30, 1), (20, 9)]⟩

example : Sorts byTip ∧ [0, 25, 50, 100].Pairwise (· ≤ ·) ∧ rewards byTip busy [0, 25, 50, 100] = [1, 1, 5, 9] :=
  ⟨byTip_sorts, by decide, by decide +kernel⟩

/-- **C91 (the answer).** Over any history in which all requests are for the same percentiles: for blocks the node
has, the first of them not zero, an answer gives each block's base fee, gas and rewards, and one more base fee. -/
theorem history_exact_partial (arrange : List (Nat × Int) → List (Nat × Int)) (cap : Nat) (n₀ : Node) (h₀ : n₀.cache = [])
    (ps : List Nat) (os : List Op) (hall : AllAsk ps os) (start blocks : Nat) (n : Node)
    (hn : n = run arrange cap n₀ os) (h1 : 1 ≤ start) (hb : start + blocks ≤ n.latest + 1) (hcap : blocks ≤ cap)
    (hlim : ∀ id, start ≤ id → id < start + blocks → (n.info id).limit ≠ 0) :
    ∃ more, (ask arrange cap n ((start : Int) + blocks - 1) blocks ps).2 =
      .ok start (((List.range' start blocks).map fun id => some (n.info id).base) ++ [more])
        ((List.range' start blocks).map fun id => ((n.info id).used, (n.info id).limit))
        ((List.range' start blocks).map fun id => rewards arrange (n.info id) ps) := by
  have hinv : Inv arrange ps n := by rw [hn]; exact run_inv arrange cap n₀ h₀ ps os hall
  obtain ⟨_, _, _, h4⟩ := collect_spec arrange ps (List.range' start blocks) n hinv
  obtain ⟨ones, hc, hones⟩ := h4 fun id hid => by
    rw [List.mem_range'_1] at hid
    exact ⟨by omega, by omega, hlim id hid.1 hid.2⟩
  have hstop : stopOf n ((start : Int) + blocks - 1) = (start : Int) + blocks - 1 := by
    unfold stopOf
    rw [if_neg (by omega)]
  have hblocks : blocksOf ((start : Int) + blocks - 1) blocks = blocks := by
    unfold blocksOf
    rw [if_neg (by omega)]
  unfold ask
  rw [if_neg (by omega), hstop, hblocks, if_neg (by omega)]
  have e1 : ((start : Int) + blocks - 1 + 1 - blocks).toNat = start := by omega
  rw [e1, Int.toNat_natCast]
  unfold gather
  cases hcc : collect arrange ps n (List.range' start blocks) with
  | mk n' r =>
    rw [hcc] at hc
    dsimp only at hc
    subst hc
    dsimp only
    refine ⟨(ones.getLast?).map fun o => o.next, ?_⟩
    have m1 : ones.map (fun o => some o.base) = (List.range' start blocks).map fun id => some (n.info id).base := by
      have := congrArg (List.map fun x : Nat × Nat × Nat × List Int => some x.1) hones
      rw [List.map_map, List.map_map] at this
      exact this
    have m2 : ones.map (fun o => (o.used, o.limit)) = (List.range' start blocks).map fun id => ((n.info id).used, (n.info id).limit) := by
      have := congrArg (List.map fun x : Nat × Nat × Nat × List Int => (x.2.1, x.2.2.1)) hones
      rw [List.map_map, List.map_map] at this
      exact this
    have m3 : ones.map (fun o => o.rewards) = (List.range' start blocks).map fun id => rewards arrange (n.info id) ps := by
      have := congrArg (List.map fun x : Nat × Nat × Nat × List Int => x.2.2.2) hones
      rw [List.map_map, List.map_map] at this
      exact this
    have m4 : ones.map (row ps) = ones.map (fun o => o.rewards) := by
      apply List.map_congr_left
      intro o ho
      apply row_eq
      have : o.rewards ∈ ones.map (fun o => o.rewards) := List.mem_map.2 ⟨o, ho, rfl⟩
      rw [m3, List.mem_map] at this
      obtain ⟨id, _, e⟩ := this
      rw [← e, rewards_length]
    unfold bases
    rw [m1, m2, m4, m3]

/-- A chain of three blocks. -/
def three : Node := ⟨3, fun h => if h = 3 then ⟨1300, 0, 400, []⟩ else if h = 2 then busy else ⟨900, 40, 400, [(40, 2)]⟩, []⟩

/-- The history of a user who asks twice for the same percentiles, with a block in between. -/
def userOps : List Op := [.block ⟨1250, 10, 400, [(10, 4)]⟩, .ask 3 2 [50]]

example : AllAsk [50] userOps ∧
    (ask byTip 100 (run byTip 100 three userOps) 4 3 [50]).2 =
      .ok 2 [some 1000, some 1300, some 1250, some 1250] [(100, 400), (0, 400), (10, 400)] [[5], [0], [4]] := by
  refine ⟨fun o ho => ?_, by decide +kernel⟩
  simp only [userOps, List.mem_cons, List.not_mem_nil, or_false] at ho
  rcases ho with rfl | rfl
  · trivial
  · rfl

/-- **C91 (too many blocks).** More blocks than the limit are refused. -/
theorem history_bounded (arrange : List (Nat × Int) → List (Nat × Int)) (cap : Nat) (n : Node) (last count : Int) (ps : List Nat)
    (h : (cap : Int) < count) : ask arrange cap n last count ps = (n, .error) := by
  unfold ask
  rw [if_pos h]

/-! ## Where it is false -/

/-- **C91 (other percentiles).** After somebody has asked for the median of block 2, everyone who asks for its highest
tip is told the median; after somebody has asked for no rewards, everyone is told zero. -/
theorem others_percentiles :
    ¬ RewardsOf busy [100] [5] ∧
    (ask byTip 100 (run byTip 100 three [.ask 2 1 [50]]) 2 1 [100]).2 = .ok 2 [some 1000, some 1300] [(100, 400)] [[5]] ∧
    (ask byTip 100 (run byTip 100 three [.ask 2 1 []]) 2 1 [100]).2 = .ok 2 [some 1000, some 1300] [(100, 400)] [[0]] ∧
    (ask byTip 100 three 2 1 [100]).2 = .ok 2 [some 1000, some 1300] [(100, 400)] [[9]] := by
  refine ⟨fun h => ?_, by decide +kernel, by decide +kernel, by decide +kernel⟩
  rcases h.2 0 100 5 rfl rfl with h | ⟨_, h, _⟩
  · exact absurd h.2 (by decide)
  · rcases h with h | h
    · exact absurd h (by decide)
    · exact absurd (h 9 (by decide)) (by decide)

/-- **C91 (percentiles out of order).** They are accepted, and the later ones are wrong. -/
theorem unordered_percentiles : rewards byTip busy [100, 0] = [9, 9] ∧ ¬ RewardsOf busy [100, 0] [9, 9] := by
  refine ⟨by decide +kernel, fun h => ?_⟩
  rcases h.2 1 0 9 rfl rfl with h | ⟨_, _, h⟩
  · exact absurd h.2 (by decide)
  · exact absurd (h 1 (by decide) (by decide)) (by decide)

/-- **C91 (the base fee after the last block).** Asked for block 1, the node says that the base fee after it is that of
its newest block, although block 2 is known; and never computes one for the block to come. -/
theorem next_base_fee_wrong :
    (ask byTip 100 three 1 1 []).2 = .ok 1 [some 900, some 1300] [(40, 400)] [[]] ∧ (three.info 2).base = 1000 := by
  exact ⟨by decide +kernel, by decide +kernel⟩

/-- **C91 (before the first block).** Asked for more blocks than there are, the node tells of a block 0 with the
figures of its newest block. -/
theorem block_zero :
    (ask byTip 100 three 1 2 []).2 = .ok 0 [some 1300, some 900, some 1300] [(0, 400), (40, 400)] [[], []] := by
  decide +kernel

/-- **C91 (great counts).** A count of 2^63 and more, negative as an `int64`, crashes the handler. -/
theorem great_counts_panic (arrange : List (Nat × Int) → List (Nat × Int)) (cap : Nat) (n : Node) (last count : Int)
    (ps : List Nat) (h : count < 0) : (ask arrange cap n last count ps).2 = .panic := by
  have hs : 0 ≤ stopOf n last := by
    unfold stopOf
    split
    · exact Int.natCast_nonneg _
    · omega
  have hb : blocksOf (stopOf n last) count = count := by
    unfold blocksOf
    rw [if_neg (by omega)]
  unfold ask
  rw [if_neg (by omega), hb, if_pos h]

example : (ask byTip 100 three 3 (-9223372036854775808) []).2 = .panic := by decide +kernel

end FeeHistory
