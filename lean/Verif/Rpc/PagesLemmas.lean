import Verif.Rpc.PagesSpec
/-! # Pages of blocks and of transactions: lemmas -/
namespace Pages
variable {B T : Type}

theorem fetch_some {get : Nat → Option B} : ∀ {n i : Nat} {l : List B}, fetch get i n = some l → n ≤ i + 1 →
    l.length = n ∧ ∀ j, j < n → l[j]? = get (i - j)
  | 0, i, l, h, _ => by
    cases h
    exact ⟨rfl, fun j hj => absurd hj (Nat.not_lt_zero j)⟩
  | n + 1, i, l, h, hn => by
    unfold fetch at h
    split at h
    · cases h
    next b hb =>
    cases hr : fetch get (i - 1) n with
    | none => rw [hr] at h; cases h
    | some r =>
      rw [hr] at h
      cases h
      have := fetch_some hr (by omega)
      refine ⟨by rw [List.length_cons, this.1], fun j hj => ?_⟩
      cases j with
      | zero => exact hb.symm
      | succ j =>
        rw [List.getElem?_cons_succ, this.2 j (by omega)]
        congr 1
        omega

theorem fetch_isSome {get : Nat → Option B} : ∀ {n i : Nat}, (∀ j, j < n → ∃ b, get (i - j) = some b) → ∃ l, fetch get i n = some l
  | 0, _, _ => ⟨[], rfl⟩
  | n + 1, i, h => by
    obtain ⟨b, hb⟩ := h 0 (by omega)
    obtain ⟨l, hl⟩ := fetch_isSome (n := n) (i := i - 1) (get := get) (fun j hj => by
      obtain ⟨b', hb'⟩ := h (j + 1) (by omega)
      exact ⟨b', by rw [← hb']; congr 1; omega⟩)
    unfold fetch
    rw [Nat.sub_zero] at hb
    rw [hb]
    exact ⟨b :: l, by dsimp only; rw [hl]; rfl⟩

/-- The position of a page within the chain, without the wrapping. -/
theorem stop_eq {start size latest w : Nat} (h1 : size ≤ start) (h2 : start ≤ latest) (h3 : latest < w) (h4 : 0 < size) :
    (if latest < (start + w - size + 1) % w then 0 else (start + w - size + 1) % w) = start + 1 - size := by
  have e : start + w - size + 1 = (start + 1 - size) + w := by omega
  rw [e, Nat.add_mod_right, Nat.mod_eq_of_lt (by omega), if_neg (by omega)]

theorem stop_zero {start size latest w : Nat} (h1 : start < size) (_h2 : start ≤ latest) (h3 : latest + size < w) :
    (if latest < (start + w - size + 1) % w then 0 else (start + w - size + 1) % w) = 0 := by
  by_cases he : start + 1 = size
  · have e : start + w - size + 1 = w := by omega
    rw [e, Nat.mod_self, if_neg (Nat.not_lt_zero _)]
  · rw [Nat.mod_eq_of_lt (by omega), if_pos (by omega)]

theorem blockPage_eq {get : Nat → Option B} {latest page size : Nat} (h0 : 0 < page) (h1 : 0 < size) (h2 : size ≤ 100)
    (hl : latest + 100 < wrap) (ho : (page - 1) * size % wrap ≤ latest) :
    blockPage get latest page size =
      fetch get (latest - (page - 1) * size % wrap)
        (if size ≤ latest - (page - 1) * size % wrap then size else latest - (page - 1) * size % wrap + 1) := by
  unfold blockPage
  rw [if_neg (by omega), if_neg (by omega), if_neg (by omega)]
  generalize (page - 1) * size % wrap = off at *
  dsimp only
  by_cases hs : size ≤ latest - off
  · rw [stop_eq hs (by omega) (by omega) h1, if_pos hs]
    congr 1
    omega
  · rw [stop_zero (by omega) (by omega) (by omega), if_neg hs]
    rfl

/-! ## Loops over transactions -/

theorem collect_spec (skip size : Nat) : ∀ (xs : List T) (k : Nat) (acc : List T), acc.length < size → acc.length = k - skip →
    (collect skip size k acc xs).2 = acc ++ (xs.drop (skip - k)).take (size - acc.length) ∧
    ((collect skip size k acc xs).2.length < size → (collect skip size k acc xs).1 = k + xs.length)
  | [], k, acc, _, _ => by
    unfold collect
    rw [List.drop_nil, List.take_nil, List.append_nil]
    exact ⟨rfl, fun _ => rfl⟩
  | x :: xs, k, acc, hl, hk => by
    unfold collect
    by_cases hs : skip ≤ k
    · rw [if_pos hs]
      have hd : skip - k = 0 := by omega
      rw [hd, List.drop_zero]
      by_cases hf : size ≤ (acc ++ [x]).length
      · rw [if_pos hf]
        rw [List.length_append, List.length_singleton] at hf
        have he : size - acc.length = 1 := by omega
        refine ⟨by rw [he]; rfl, fun h => ?_⟩
        dsimp only at h
        rw [List.length_append, List.length_singleton] at h
        omega
      · rw [if_neg hf]
        rw [List.length_append, List.length_singleton] at hf
        have ih := collect_spec skip size xs (k + 1) (acc ++ [x]) (by rw [List.length_append, List.length_singleton]; omega)
          (by rw [List.length_append, List.length_singleton]; omega)
        constructor
        · rw [ih.1]
          have hd' : skip - (k + 1) = 0 := by omega
          have hs' : size - acc.length = (size - (acc ++ [x]).length) + 1 := by rw [List.length_append, List.length_singleton]; omega
          rw [hd', hs', List.drop_zero, List.take_succ_cons, List.append_assoc]
          rfl
        · intro h
          rw [ih.2 h, List.length_cons]
          omega
    · rw [if_neg hs]
      have ih := collect_spec skip size xs (k + 1) acc hl (by omega)
      constructor
      · rw [ih.1]
        have : skip - k = (skip - (k + 1)) + 1 := by omega
        rw [this, List.drop_succ_cons]
      · intro h
        rw [ih.2 h, List.length_cons]
        omega

/-- What the list holds after `k` were seen. -/
theorem taken_length {skip size k : Nat} {pre : List T} (hk : pre.length = k) (h : ((pre.drop skip).take size).length < size) :
    ((pre.drop skip).take size).length = k - skip := by
  rw [List.length_take, List.length_drop] at *
  omega

theorem take_full {skip size : Nat} {pre post : List T} (h : size ≤ ((pre.drop skip).take size).length) :
    ((pre ++ post).drop skip).take size = (pre.drop skip).take size := by
  rw [List.length_take, List.length_drop] at h
  have h' : size ≤ pre.length - skip := by omega
  by_cases h0 : size = 0
  · rw [h0, List.take_zero, List.take_zero]
  rw [List.drop_append_of_le_length (by omega), List.take_append_of_le_length (by rw [List.length_drop]; omega)]

theorem take_more {skip size : Nat} {pre post : List T} (h : ((pre.drop skip).take size).length < size) :
    ((pre ++ post).drop skip).take size =
      (pre.drop skip).take size ++ (post.drop (skip - pre.length)).take (size - ((pre.drop skip).take size).length) := by
  rw [List.length_take, List.length_drop] at *
  rw [List.drop_append, List.take_append, List.length_drop]
  congr 2
  omega

theorem collectBlocks_spec (skip size : Nat) : ∀ (bs : List (Block T)) (pre : List T),
    collectBlocks skip size pre.length ((pre.drop skip).take size) bs = ((pre ++ bs.flatMap (·.eth)).drop skip).take size
  | [], pre => by
    unfold collectBlocks
    rw [List.flatMap_nil, List.append_nil]
  | b :: bs, pre => by
    unfold collectBlocks
    by_cases hf : size ≤ ((pre.drop skip).take size).length
    · rw [if_pos hf, take_full hf]
    · rw [if_neg hf]
      have hl := Nat.lt_of_not_le hf
      have hc := collect_spec skip size b.eth pre.length ((pre.drop skip).take size) hl (taken_length rfl hl)
      rw [← take_more hl] at hc
      rw [hc.1, List.flatMap_cons, ← List.append_assoc]
      by_cases hg : size ≤ (((pre ++ b.eth).drop skip).take size).length
      · rw [take_full hg]
        cases bs with
        | nil => rfl
        | cons c cs =>
          unfold collectBlocks
          rw [if_pos hg]
      · have hk := hc.2 (by rw [hc.1]; omega)
        rw [hk, ← List.length_append]
        exact collectBlocks_spec skip size bs (pre ++ b.eth)

theorem pending_spec (skip size : Nat) (hs : 0 < size) (pending : List T) :
    (collect skip size 0 [] pending).2 = (pending.drop skip).take size ∧
    ((collect skip size 0 [] pending).2.length < size → (collect skip size 0 [] pending).1 = pending.length) := by
  have := collect_spec skip size pending 0 [] hs (by rw [List.length_nil]; omega)
  rw [List.nil_append, Nat.sub_zero, List.length_nil, Nat.sub_zero, Nat.zero_add] at this
  exact this

theorem txPage_eq {locate : Nat → Nat → List (Block T)} {pending : List T} {latest page size : Nat} {l : List T}
    (h : txPage locate pending latest page size = some l) :
    (0 < page ∧ 0 < size ∧ size ≤ 100) ∧
    l = ((listing pending (scan locate (((page - 1) * size % wrap + size) % wrap) latest latest 0)).drop ((page - 1) * size % wrap)).take size := by
  unfold txPage at h
  split at h
  · cases h
  next hg =>
  refine ⟨by omega, ?_⟩
  dsimp only at h
  have hp := pending_spec ((page - 1) * size % wrap) size (by omega) pending
  generalize (page - 1) * size % wrap = skip at *
  rw [hp.1] at h hp
  unfold listing
  split at h
  next hf =>
    cases h
    rw [take_full hf]
  next hf =>
    rw [hp.2 (Nat.lt_of_not_le hf), collectBlocks_spec] at h
    exact (Option.some.inj h).symm

theorem txPage_isSome {locate : Nat → Nat → List (Block T)} {pending : List T} {latest page size : Nat} (h : 0 < page ∧ 0 < size ∧ size ≤ 100) :
    ∃ l, txPage locate pending latest page size = some l := by
  unfold txPage
  rw [if_neg (by omega)]
  dsimp only
  split
  · exact ⟨_, rfl⟩
  · exact ⟨_, rfl⟩

theorem accountPage_eq {mine : T → Bool} {locate : Nat → Nat → List (Block T)} {pending : List T} {latest page size : Nat} {l : List T}
    (h : accountPage mine locate pending latest page size = some l) :
    (0 < page ∧ 0 < size ∧ size ≤ 100) ∧
    l = ((listing (pending.filter mine) ((scanTo locate (max 1 (latest - 1000)) (((page - 1) * size % wrap + size) % wrap) latest latest 0).map
      fun b => { b with eth := b.eth.filter mine })).drop ((page - 1) * size % wrap)).take size := by
  unfold accountPage at h
  split at h
  · cases h
  next hg =>
  refine ⟨by omega, ?_⟩
  dsimp only at h
  have hp := pending_spec ((page - 1) * size % wrap) size (by omega) (pending.filter mine)
  generalize (page - 1) * size % wrap = skip at *
  rw [hp.1] at h hp
  unfold listing
  split at h
  next hf =>
    cases h
    rw [take_full hf]
  next hf =>
    rw [hp.2 (Nat.lt_of_not_le hf), collectBlocks_spec] at h
    exact (Option.some.inj h).symm

end Pages
