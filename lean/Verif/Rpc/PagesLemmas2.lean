import Verif.Rpc.PagesLemmas
/-! # Pages of blocks and of transactions: lemmas on the search -/
namespace Pages
variable {T : Type}

/-- The blocks up to a height. -/
def below (chain : List (Block T)) (hi : Nat) : List (Block T) := chain.filter (fun b => decide (b.height ≤ hi))

theorem below_split (lo hi : Nat) (h : lo ≤ hi) : ∀ {chain : List (Block T)}, (chain.map (·.height)).Pairwise (· > ·) →
    below chain hi = between chain (lo + 1) hi ++ below chain lo
  | [], _ => rfl
  | b :: bs, hp => by
    rw [List.map_cons, List.pairwise_cons] at hp
    have ih := below_split lo hi h hp.2
    unfold below between at *
    by_cases h1 : b.height ≤ lo
    · rw [List.filter_cons_of_pos (by simp only [decide_eq_true_eq]; omega),
        List.filter_cons_of_neg (p := fun b : Block T => decide (lo + 1 ≤ b.height ∧ b.height ≤ hi)) (by simp only [decide_eq_true_eq]; omega),
        List.filter_cons_of_pos (p := fun b : Block T => decide (b.height ≤ lo)) (by simp only [decide_eq_true_eq]; omega), ih]
      have hnil : bs.filter (fun b => decide (lo + 1 ≤ b.height ∧ b.height ≤ hi)) = [] := by
        rw [List.filter_eq_nil_iff]
        intro c hc hcon
        have := hp.1 c.height (List.mem_map_of_mem hc)
        simp only [decide_eq_true_eq] at hcon
        omega
      rw [hnil, List.nil_append, List.nil_append]
    · by_cases h2 : b.height ≤ hi
      · rw [List.filter_cons_of_pos (by simp only [decide_eq_true_eq]; omega),
          List.filter_cons_of_pos (p := fun b : Block T => decide (lo + 1 ≤ b.height ∧ b.height ≤ hi)) (by simp only [decide_eq_true_eq]; omega),
          List.filter_cons_of_neg (p := fun b : Block T => decide (b.height ≤ lo)) (by simp only [decide_eq_true_eq]; omega), ih]
        rfl
      · rw [List.filter_cons_of_neg (by simp only [decide_eq_true_eq]; omega),
          List.filter_cons_of_neg (p := fun b : Block T => decide (lo + 1 ≤ b.height ∧ b.height ≤ hi)) (by simp only [decide_eq_true_eq]; omega),
          List.filter_cons_of_neg (p := fun b : Block T => decide (b.height ≤ lo)) (by simp only [decide_eq_true_eq]; omega), ih]

theorem below_all {latest : Nat} {chain : List (Block T)} (h : Chain latest chain) : below chain latest = chain :=
  List.filter_eq_self.2 fun b hb => decide_eq_true (h.inRange b hb).2

theorem below_zero {latest : Nat} {chain : List (Block T)} (h : Chain latest chain) : below chain 0 = [] :=
  List.filter_eq_nil_iff.2 fun b hb hc => by
    have := (h.inRange b hb).1
    simp only [decide_eq_true_eq] at hc
    omega

theorem counted_all {latest : Nat} {chain : List (Block T)} (h : Chain latest chain) (lo hi : Nat) :
    (between chain lo hi).filter (fun b => decide (0 < b.count)) = between chain lo hi :=
  List.filter_eq_self.2 fun b hb => decide_eq_true (h.notEmpty b (List.mem_filter.1 hb).1)

theorem counts_append (as bs : List (Block T)) : counts (as ++ bs) = counts as + counts bs := by
  unfold counts
  rw [List.map_append, List.sum_append]

/-- One round of the search. -/
theorem scan_succ {latest : Nat} {chain : List (Block T)} (hc : Chain latest chain) {need f hi total : Nat} (h0 : 0 < hi) (h1 : total < need) :
    scan (between chain) need (f + 1) hi total =
      between chain (hi - 1000 + 1) hi ++
        if hi ≤ 1000 then [] else scan (between chain) need f (hi - 1000) (total + counts (between chain (hi - 1000 + 1) hi)) := by
  rw [scan, if_neg (by omega)]
  dsimp only
  rw [counted_all hc]
  by_cases hh : hi ≤ 1000
  · rw [if_pos (by omega), if_pos hh]
  · rw [if_neg (by omega), if_neg hh, Nat.add_sub_cancel]

theorem scan_spec {latest : Nat} {chain : List (Block T)} (hc : Chain latest chain) (need : Nat) : ∀ (f hi total : Nat), hi ≤ f →
    ∃ rest, below chain hi = scan (between chain) need f hi total ++ rest ∧
      (rest = [] ∨ need ≤ total + counts (scan (between chain) need f hi total))
  | 0, hi, total, hf => by
    have : hi = 0 := by omega
    subst this
    exact ⟨[], by rw [below_zero hc]; rfl, .inl rfl⟩
  | f + 1, hi, total, hf => by
    by_cases h0 : hi = 0
    · subst h0
      rw [scan, if_pos (.inl rfl), below_zero hc]
      exact ⟨[], rfl, .inl rfl⟩
    by_cases h1 : need ≤ total
    · rw [scan, if_pos (.inr h1)]
      exact ⟨_, (List.nil_append _).symm, .inr (by omega)⟩
    rw [scan_succ hc (by omega) (by omega)]
    have hsplit := below_split (hi - 1000) hi (by omega) hc.newestFirst
    by_cases hh : hi ≤ 1000
    · rw [if_pos hh, List.append_nil]
      have hz : hi - 1000 = 0 := by omega
      rw [hz, below_zero hc, List.append_nil] at hsplit
      rw [hz]
      exact ⟨[], by rw [List.append_nil]; exact hsplit, .inl rfl⟩
    · rw [if_neg hh]
      obtain ⟨rest, hr, hd⟩ := scan_spec hc need f (hi - 1000) (total + counts (between chain (hi - 1000 + 1) hi)) (by omega)
      refine ⟨rest, by rw [hsplit, hr, List.append_assoc], hd.imp id fun h => ?_⟩
      rw [counts_append]
      omega

/-- A piece of a list lies in its beginning. -/
theorem piece_of_prefix {skip size : Nat} {pre post : List T} (h : skip + size ≤ pre.length) :
    ((pre ++ post).drop skip).take size = (pre.drop skip).take size := by
  rw [List.drop_append_of_le_length (by omega), List.take_append_of_le_length (by rw [List.length_drop]; omega)]

theorem counts_le_eth : ∀ {bs : List (Block T)}, (∀ b ∈ bs, b.count ≤ b.eth.length) → counts bs ≤ (bs.flatMap (·.eth)).length
  | [], _ => Nat.le_refl _
  | b :: bs, h => by
    have := counts_le_eth fun c hc => h c (List.mem_cons_of_mem _ hc)
    have hb := h b List.mem_cons_self
    rw [List.flatMap_cons, List.length_append]
    unfold counts at *
    rw [List.map_cons, List.sum_cons]
    omega

/-- What is taken from the beginning stands at the same place in the whole list. -/
theorem getElem?_piece {skip size i : Nat} {pre post : List T} {x : T} (h : ((pre.drop skip).take size)[i]? = some x) :
    (pre ++ post)[skip + i]? = some x := by
  obtain ⟨hi, _⟩ := List.getElem?_eq_some_iff.1 h
  rw [List.length_take, List.length_drop] at hi
  rw [List.getElem?_take_of_lt (by omega), List.getElem?_drop] at h
  rw [List.getElem?_append_left (by omega)]
  exact h

/-- The search for an account looks at 2000 heights at most. -/
theorem scanTo_heights {locate : Nat → Nat → List (Block T)} (hl : ∀ lo hi, ∀ b ∈ locate lo hi, lo ≤ b.height ∧ b.height ≤ hi)
    (latest need : Nat) : ∀ b ∈ scanTo locate (max 1 (latest - 1000)) need latest latest 0, latest < b.height + 2000 ∧ b.height ≤ latest := by
  intro b hb
  cases latest with
  | zero => exact absurd hb (List.not_mem_nil)
  | succ n =>
    rw [scanTo] at hb
    split at hb
    · exact absurd hb List.not_mem_nil
    dsimp only at hb
    rw [List.mem_append] at hb
    cases hb with
    | inl hb =>
      have := hl _ _ b (List.mem_filter.1 hb).1
      omega
    | inr hb =>
      split at hb
      · exact absurd hb List.not_mem_nil
      next hgt =>
      cases n with
      | zero => exact absurd hb List.not_mem_nil
      | succ m =>
        rw [scanTo] at hb
        split at hb
        · exact absurd hb List.not_mem_nil
        dsimp only at hb
        rw [List.mem_append] at hb
        cases hb with
        | inl hb =>
          have := hl _ _ b (List.mem_filter.1 hb).1
          omega
        | inr hb =>
          rw [if_pos (by omega)] at hb
          exact absurd hb List.not_mem_nil

/-- What the search finds was located. -/
theorem scanTo_mem {locate : Nat → Nat → List (Block T)} (floor need : Nat) : ∀ (f hi total : Nat) {b : Block T},
    b ∈ scanTo locate floor need f hi total → ∃ lo hi, b ∈ locate lo hi
  | 0, _, _, _, h => absurd h List.not_mem_nil
  | f + 1, hi, total, b, h => by
    rw [scanTo] at h
    split at h
    · exact absurd h List.not_mem_nil
    dsimp only at h
    rw [List.mem_append] at h
    cases h with
    | inl h => exact ⟨_, _, (List.mem_filter.1 h).1⟩
    | inr h =>
      split at h
      · exact absurd h List.not_mem_nil
      · exact scanTo_mem floor need f _ _ h

end Pages
