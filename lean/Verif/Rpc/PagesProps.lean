import Verif.Rpc.PagesLemmas2
/-! # Pages of blocks and of transactions: the theorems -/
namespace Pages
variable {B T : Type}

/-! ## Blocks -/

/-- A page that lies wholly within the chain shows its blocks, newest first, and no others. -/
theorem block_page {get : Nat → Option B} {latest page size : Nat} (h0 : 0 < page) (h1 : 0 < size) (h2 : size ≤ 100)
    (hl : latest < 9223372036854775808) (hin : page * size ≤ latest) (hkept : ∀ h, 0 < h → h ≤ latest → ∃ b, get h = some b) :
    ∃ l, blockPage get latest page size = some l ∧ l.length = size ∧ ∀ i, i < size → l[i]? = get (latest - (page - 1) * size - i) := by
  obtain ⟨q, rfl⟩ : ∃ q, page = q + 1 := ⟨page - 1, by omega⟩
  rw [Nat.add_mul, Nat.one_mul] at hin
  have hw : (q + 1 - 1) * size % wrap = q * size := by
    rw [Nat.add_sub_cancel]
    exact Nat.mod_eq_of_lt (by unfold wrap; omega)
  rw [blockPage_eq h0 h1 h2 (by unfold wrap; omega) (by rw [hw]; omega), hw, if_pos (by omega), Nat.add_sub_cancel]
  obtain ⟨l, h⟩ := fetch_isSome (get := get) (i := latest - q * size) (n := size) fun j hj => hkept _ (by omega) (by omega)
  have := fetch_some h (by omega)
  exact ⟨l, h, this.1, this.2⟩

example : blockPage (fun h => if 0 < h ∧ h ≤ 7 then some h else none) 7 2 3 = some [4, 3, 2] := by decide +kernel

/-- Whatever is answered is a whole page: an answer is never cut short, whatever the store has pruned. -/
theorem block_page_whole {get : Nat → Option B} {latest page size : Nat} {l : List B} (hg : get 0 = none)
    (hl : latest < 9223372036854775808) (hp : page * size < 18446744073709551616) (h : blockPage get latest page size = some l) :
    page * size ≤ latest ∧ l.length = size ∧ ∀ i, i < size → l[i]? = get (latest - (page - 1) * size - i) := by
  have hb : 0 < page ∧ 0 < size ∧ size ≤ 100 := by
    unfold blockPage at h
    split at h
    · cases h
    split at h
    · cases h
    omega
  obtain ⟨q, rfl⟩ : ∃ q, page = q + 1 := ⟨page - 1, by omega⟩
  rw [Nat.add_mul, Nat.one_mul] at hp ⊢
  have hw : (q + 1 - 1) * size % wrap = q * size := by
    rw [Nat.add_sub_cancel]
    exact Nat.mod_eq_of_lt (by unfold wrap; omega)
  have ho : q * size ≤ latest := by
    unfold blockPage at h
    rw [hw] at h
    split at h
    · cases h
    split at h
    · cases h
    split at h
    · cases h
    omega
  rw [blockPage_eq hb.1 hb.2.1 hb.2.2 (by unfold wrap; omega) (by rw [hw]; omega), hw] at h
  rw [Nat.add_sub_cancel]
  split at h
  next hs =>
    have := fetch_some h (by omega)
    exact ⟨by omega, this.1, this.2⟩
  next hs =>
    have := fetch_some h (by omega)
    have hlast := this.2 (latest - q * size) (by omega)
    rw [Nat.sub_self, hg] at hlast
    rw [List.getElem?_eq_none_iff] at hlast
    omega

/-- Every block a user asks for by pages should be on one of them. It is not: the page that reaches the beginning of the chain is refused, so that with
pages of `size` the oldest `latest % size` blocks are on none of them. -/
theorem oldest_blocks_on_no_page {get : Nat → Option B} {latest page size : Nat} {l : List B} (hg : get 0 = none)
    (hl : latest < 9223372036854775808) (hp : page * size < 18446744073709551616) (h : blockPage get latest page size = some l) :
    ∀ b ∈ l, ∃ height, get height = some b ∧ latest % size < height := by
  intro b hb
  obtain ⟨h1, h2, h3⟩ := block_page_whole hg hl hp h
  obtain ⟨i, hi, he⟩ := List.mem_iff_getElem.1 hb
  have hib : l[i]? = some b := List.getElem?_eq_some_iff.2 ⟨hi, he⟩
  rw [h3 i (by omega)] at hib
  refine ⟨_, hib, ?_⟩
  have hpage : page ≠ 0 := by
    rintro rfl
    simp [blockPage] at h
  obtain ⟨q, rfl⟩ : ∃ q, page = q + 1 := ⟨page - 1, by omega⟩
  rw [Nat.add_sub_cancel]
  rw [Nat.add_mul, Nat.one_mul] at h1
  have hle : latest % size ≤ latest - (q + 1) * size := by
    have he : latest = (latest - (q + 1) * size) + size * (q + 1) := by
      rw [Nat.mul_comm size, Nat.sub_add_cancel (by rw [Nat.add_mul, Nat.one_mul]; exact h1)]
    have hm : latest % size = (latest - (q + 1) * size) % size := by
      conv => lhs; rw [he]
      rw [Nat.add_mul_mod_self_left]
    rw [hm]
    exact Nat.mod_le _ _
  rw [Nat.add_mul, Nat.one_mul] at hle
  omega

/-- In a chain of seven blocks with pages of three, block 1 is on none; with pages of five, blocks 1 and 2. -/
example : (List.range 9).map (fun p => blockPage (fun h => if 0 < h ∧ h ≤ 7 then some h else none) 7 p 3) =
    [none, some [7, 6, 5], some [4, 3, 2], none, none, none, none, none, none] := by decide +kernel
example : (List.range 5).map (fun p => blockPage (fun h => if 0 < h ∧ h ≤ 7 then some h else none) 7 p 5) =
    [none, some [7, 6, 5, 4, 3], none, none, none] := by decide +kernel

/-- Who reads page after page while the chain grows misses no block: whatever the chain's height was at each reading, the first `k` pages hold every
block from the newest at the first reading down to the last one on page `k`. -/
theorem no_block_missed {get : Nat → Option B} {size k : Nat} {latest : Nat → Nat} {pages : Nat → List B} (hg : get 0 = none)
    (hl : ∀ i, latest i < 9223372036854775808) (hgrow : ∀ i, latest i ≤ latest (i + 1)) (hp : k * size < 18446744073709551616)
    (h : ∀ i, 1 ≤ i → i ≤ k → blockPage get (latest i) i size = some (pages i)) :
    ∀ height b, get height = some b → height ≤ latest 1 → latest k < height + k * size → 1 ≤ k → ∃ i, 1 ≤ i ∧ i ≤ k ∧ b ∈ pages i := by
  intro height b hb h1
  have here : ∀ i, 1 ≤ i → i ≤ k → i * size < 18446744073709551616 → height + (i - 1) * size ≤ latest i → latest i < height + i * size →
      b ∈ pages i := fun i hi hik hiw h2 h3 => by
    obtain ⟨_, _, h5⟩ := block_page_whole hg (hl _) hiw (h i hi hik)
    obtain ⟨q, rfl⟩ : ∃ q, i = q + 1 := ⟨i - 1, by omega⟩
    rw [Nat.add_sub_cancel] at h5 h2
    rw [Nat.add_mul, Nat.one_mul] at h3
    have := h5 (latest (q + 1) - q * size - height) (by omega)
    have he : latest (q + 1) - q * size - (latest (q + 1) - q * size - height) = height := by omega
    rw [he, hb] at this
    exact List.mem_of_getElem? this
  clear hl
  induction k with
  | zero => intro _ h3; omega
  | succ k ih =>
    intro h2 _
    have hp' := hp
    rw [Nat.add_mul, Nat.one_mul] at hp'
    by_cases hk : k = 0
    · subst hk
      exact ⟨1, Nat.le_refl _, Nat.le_refl _, here 1 (Nat.le_refl _) (Nat.le_refl _) hp (by omega) h2⟩
    by_cases hold : latest k < height + k * size
    · obtain ⟨i, h3, h4, h5⟩ := ih (by omega) (fun i h3 h4 => h i h3 (by omega)) (fun i h3 h4 => here i h3 (by omega)) hold (by omega)
      exact ⟨i, h3, by omega, h5⟩
    · refine ⟨k + 1, by omega, Nat.le_refl _, here _ (by omega) (Nat.le_refl _) hp ?_ h2⟩
      have := hgrow k
      rw [Nat.add_sub_cancel]
      omega

/-- Three pages of two blocks; the chain grows from 9 to 10 and 12 between the readings. -/
example : (let get := fun h => if 0 < h ∧ h ≤ 12 then some h else none
    [blockPage get 9 1 2, blockPage get 10 2 2, blockPage get 12 3 2]) = [some [9, 8], some [8, 7], some [8, 7]] := by decide +kernel

/-- A page number so high that the position wraps is not refused as out of range: this one shows the newest blocks. -/
theorem far_page_shows_newest (get : Nat → Option B) (latest : Nat) :
    blockPage get latest 9223372036854775809 2 = blockPage get latest 1 2 := by
  have e1 : (9223372036854775809 - 1) * 2 % wrap = 0 := by decide +kernel
  have e2 : (1 - 1) * 2 % wrap = 0 := by decide +kernel
  unfold blockPage
  rw [e1, e2]
  rfl

/-! ## Transactions -/

/-- `pageOf`, whose position does not wrap. -/
private theorem pos {page size : Nat} (h0 : 0 < page) (h1 : 0 < size) (hp : page * size < 18446744073709551616) :
    (page - 1) * size % wrap = (page - 1) * size ∧ ((page - 1) * size + size) % wrap = (page - 1) * size + size := by
  obtain ⟨q, rfl⟩ : ∃ q, page = q + 1 := ⟨page - 1, by omega⟩
  rw [Nat.add_mul, Nat.one_mul] at hp
  rw [Nat.add_sub_cancel]
  exact ⟨Nat.mod_eq_of_lt (by unfold wrap; omega), Nat.mod_eq_of_lt (by unfold wrap; omega)⟩

/-- What a page shows stands there in the list of all transactions, pending ones first, then block by block: page `page` never shows what belongs on
another page, and never more than `size`. -/
theorem shown_in_place {latest page size : Nat} {chain : List (Block T)} {pending l : List T} (hc : Chain latest chain)
    (hp : page * size < 18446744073709551616) (h : txPage (between chain) pending latest page size = some l) :
    l.length ≤ size ∧ ∀ (i : Nat) (x : T), l[i]? = some x → (listing pending chain)[(page - 1) * size + i]? = some x := by
  obtain ⟨⟨h0, h1, h2⟩, he⟩ := txPage_eq h
  obtain ⟨e1, e2⟩ := pos h0 h1 hp
  rw [e1, e2] at he
  obtain ⟨rest, hr, _⟩ := scan_spec hc ((page - 1) * size + size) latest latest 0 (Nat.le_refl _)
  rw [below_all hc] at hr
  subst he
  refine ⟨by rw [List.length_take]; omega, fun i x hx => ?_⟩
  have := getElem?_piece (post := rest.flatMap (·.eth)) hx
  unfold listing at *
  rw [List.append_assoc, ← List.flatMap_append, ← hr] at this
  exact this

/-- Page by page the list of all transactions should be shown. Proved only where no block holds more Cosmos transactions than Ethereum ones, since the
search for blocks counts the former; `newest_on_no_page` shows that it fails otherwise. -/
theorem tx_page_partial {latest page size : Nat} {chain : List (Block T)} {pending : List T} (hc : Chain latest chain)
    (heth : ∀ b ∈ chain, b.count ≤ b.eth.length) (h0 : 0 < page) (h1 : 0 < size) (h2 : size ≤ 100)
    (hp : page * size < 18446744073709551616) :
    txPage (between chain) pending latest page size = some (pageOf (listing pending chain) page size) := by
  obtain ⟨l, hl⟩ := txPage_isSome (locate := between chain) (pending := pending) (latest := latest) ⟨h0, h1, h2⟩
  obtain ⟨_, he⟩ := txPage_eq hl
  obtain ⟨e1, e2⟩ := pos h0 h1 hp
  rw [e1, e2] at he
  obtain ⟨rest, hr, hd⟩ := scan_spec hc ((page - 1) * size + size) latest latest 0 (Nat.le_refl _)
  rw [below_all hc] at hr
  rw [hl, he]
  congr 1
  unfold pageOf listing
  generalize scan (between chain) ((page - 1) * size + size) latest latest 0 = sc at *
  cases hd with
  | inl hd =>
    subst hd
    rw [List.append_nil] at hr
    rw [hr]
  | inr hd =>
    have := counts_le_eth (bs := sc) fun b hb => heth b (hr ▸ List.mem_append_left _ hb)
    conv => rhs; rw [hr, List.flatMap_append, ← List.append_assoc]
    exact (piece_of_prefix (by rw [List.length_append]; omega)).symm

/-- As long as the chain has no more than 1000 blocks, the pages show the whole list. -/
theorem tx_page_young_chain {latest page size : Nat} {chain : List (Block T)} {pending : List T} (hc : Chain latest chain) (hy : latest ≤ 1000)
    (h0 : 0 < page) (h1 : 0 < size) (h2 : size ≤ 100) (hp : page * size < 18446744073709551616) :
    txPage (between chain) pending latest page size = some (pageOf (listing pending chain) page size) := by
  obtain ⟨l, hl⟩ := txPage_isSome (locate := between chain) (pending := pending) (latest := latest) ⟨h0, h1, h2⟩
  obtain ⟨_, he⟩ := txPage_eq hl
  obtain ⟨e1, e2⟩ := pos h0 h1 hp
  rw [e1, e2] at he
  have hs : scan (between chain) ((page - 1) * size + size) latest latest 0 = chain := by
    have hb := below_all hc
    cases latest with
    | zero =>
      rw [below_zero hc] at hb
      rw [← hb]
      rfl
    | succ n =>
      rw [scan_succ hc (by omega) (by omega), if_pos hy, List.append_nil]
      have hz : n + 1 - 1000 = 0 := by omega
      rw [below_split 0 (n + 1) (by omega) hc.newestFirst, below_zero hc, List.append_nil] at hb
      rw [hz]
      exact hb
  rw [hl, he, hs]
  rfl

example : Chain 3 [⟨3, 1, [70, 71]⟩, ⟨1, 2, [72, 73]⟩] := ⟨by decide, by decide, by decide⟩
example : [1, 2, 3, 4].map (txPage (between [⟨3, 1, [70, 71]⟩, ⟨1, 2, [72, 73]⟩]) [90] 3 · 2) =
    [some [90, 70], some [71, 72], some [73], some []] := by decide +kernel

/-- Where the newest 1000 blocks hold a hundred or more Cosmos transactions and no Ethereum ones, nothing is shown on page 1, whatever its size, and the
newest Ethereum transaction of the chain is on no page of any size. -/
theorem newest_on_no_page {latest : Nat} {chain : List (Block T)} {x : T} {older : List T} (hc : Chain latest chain) (hlong : 1000 < latest)
    (hcosmos : 100 ≤ counts (between chain (latest - 999) latest)) (hnone : ∀ b ∈ chain, latest < b.height + 1000 → b.eth = [])
    (hlist : listing [] chain = x :: older) (hx : x ∉ older) :
    (∀ size, 0 < size → size ≤ 100 → txPage (between chain) [] latest 1 size = some []) ∧
    ∀ page size l, txPage (between chain) [] latest page size = some l → x ∉ l := by
  have hfirst : ∀ need, 0 < need → need ≤ 100 → listing [] (scan (between chain) need latest latest 0) = [] := fun need h0 h1 => by
    obtain ⟨n, rfl⟩ : ∃ n, latest = n + 1 := ⟨latest - 1, by omega⟩
    rw [scan_succ hc (by omega) h0, if_neg (by omega)]
    have he : n + 1 - 1000 + 1 = n + 1 - 999 := by omega
    have hstop : scan (between chain) need n (n + 1 - 1000) (0 + counts (between chain (n + 1 - 1000 + 1) (n + 1))) = [] := by
      cases n with
      | zero => rfl
      | succ m => rw [scan, if_pos (.inr (by rw [he]; omega))]
    rw [hstop, List.append_nil]
    unfold listing
    rw [List.nil_append, List.flatMap_eq_nil_iff]
    intro b hb
    obtain ⟨h2, h3⟩ := List.mem_filter.1 hb
    simp only [decide_eq_true_eq] at h3
    exact hnone b h2 (by omega)
  refine ⟨fun size h0 h1 => ?_, fun page size l h => ?_⟩
  · obtain ⟨l, hl⟩ := txPage_isSome (locate := between chain) (pending := []) (latest := latest) (page := 1) ⟨by omega, h0, h1⟩
    obtain ⟨_, he⟩ := txPage_eq hl
    have e1 : (1 - 1) * size % wrap = 0 := by rw [Nat.sub_self, Nat.zero_mul]; rfl
    have e2 : (0 + size) % wrap = size := by rw [Nat.zero_add]; exact Nat.mod_eq_of_lt (by unfold wrap; omega)
    rw [e1, e2, hfirst size h0 h1] at he
    rw [hl, he, List.drop_nil, List.take_nil]
  · obtain ⟨⟨_, h1, h2⟩, he⟩ := txPage_eq h
    intro hmem
    generalize (page - 1) * size % wrap = skip at he
    cases skip with
    | zero =>
      have e2 : (0 + size) % wrap = size := by rw [Nat.zero_add]; exact Nat.mod_eq_of_lt (by unfold wrap; omega)
      rw [e2, hfirst size h1 h2, List.drop_nil, List.take_nil] at he
      subst he
      exact absurd hmem List.not_mem_nil
    | succ skip =>
      obtain ⟨rest, hr, _⟩ := scan_spec hc ((skip + 1 + size) % wrap) latest latest 0 (Nat.le_refl _)
      rw [below_all hc] at hr
      subst he
      have hm := List.mem_of_mem_take hmem
      have hin : x ∈ (listing [] chain).drop (skip + 1) := by
        unfold listing at *
        rw [hr, List.flatMap_append, ← List.append_assoc, List.drop_append]
        exact List.mem_append_left _ hm
      rw [hlist, List.drop_succ_cons] at hin
      exact hx (List.mem_of_mem_drop hin)

/-- Such a chain: a hundred votes of orchestrators in block 1800, one transfer in block 600. -/
example : Chain 2000 [⟨1800, 100, []⟩, ⟨600, 1, [70]⟩] ∧ 100 ≤ counts (between [⟨1800, 100, ([] : List Nat)⟩, ⟨600, 1, [70]⟩] (2000 - 999) 2000) ∧
    listing [] [⟨1800, 100, []⟩, ⟨600, 1, [70]⟩] = [70] := ⟨⟨by decide, by decide, by decide⟩, by decide, rfl⟩

/-! ## Transactions of an account -/

/-- What is shown for an account was sent or received by it, and is pending or in one of the newest 2000 blocks. -/
theorem account_recent_only {mine : T → Bool} {locate : Nat → Nat → List (Block T)} {pending l : List T} {latest page size : Nat}
    (hloc : ∀ lo hi, ∀ b ∈ locate lo hi, lo ≤ b.height ∧ b.height ≤ hi)
    (h : accountPage mine locate pending latest page size = some l) :
    l.length ≤ size ∧ ∀ x ∈ l, mine x = true ∧
      (x ∈ pending ∨ ∃ lo hi b, b ∈ locate lo hi ∧ x ∈ b.eth ∧ latest < b.height + 2000 ∧ b.height ≤ latest) := by
  obtain ⟨_, he⟩ := accountPage_eq h
  subst he
  refine ⟨by rw [List.length_take]; omega, fun x hx => ?_⟩
  have hm := List.mem_of_mem_drop (List.mem_of_mem_take hx)
  unfold listing at hm
  rw [List.mem_append, List.mem_filter, List.mem_flatMap] at hm
  cases hm with
  | inl hm => exact ⟨hm.2, .inl hm.1⟩
  | inr hm =>
    obtain ⟨b, hb, hxb⟩ := hm
    obtain ⟨c, hc, rfl⟩ := List.mem_map.1 hb
    rw [List.mem_filter] at hxb
    have hh := scanTo_heights hloc _ _ c hc
    obtain ⟨lo, hi, hin⟩ := scanTo_mem _ _ _ _ _ hc
    exact ⟨hxb.2, .inr ⟨lo, hi, c, hin, hxb.1, hh⟩⟩

/-- All transactions of an account should be on its pages. They are not: what lies 2000 blocks back or more is on none. -/
theorem account_old_on_no_page {mine : T → Bool} {chain : List (Block T)} {pending : List T} {latest : Nat} {x : T} (hx : x ∉ pending)
    (hold : ∀ b ∈ chain, x ∈ b.eth → b.height + 2000 ≤ latest) :
    ∀ page size l, accountPage mine (between chain) pending latest page size = some l → x ∉ l := by
  intro page size l h hxl
  obtain ⟨_, h2⟩ := account_recent_only (fun lo hi b hb => of_decide_eq_true (List.mem_filter.1 hb).2) h
  obtain ⟨_, hp | ⟨lo, hi, b, hb, hxb, h3, _⟩⟩ := h2 x hxl
  · exact hx hp
  · have := hold b (List.mem_filter.1 hb).1 hxb
    omega

example : accountPage (· == 70) (between [⟨2001, 1, [71]⟩, ⟨1, 1, [70]⟩]) [] 2001 1 10 = some [] := by decide +kernel

/-- As long as the chain has no more than 1000 blocks, the pages show all of them. -/
theorem account_page_young_chain {mine : T → Bool} {latest page size : Nat} {chain : List (Block T)} {pending : List T} (hc : Chain latest chain)
    (hy : latest ≤ 1000) (h0 : 0 < page) (h1 : 0 < size) (h2 : size ≤ 100) (hp : page * size < 18446744073709551616) :
    accountPage mine (between chain) pending latest page size = some (pageOf ((listing pending chain).filter mine) page size) := by
  obtain ⟨l, hl⟩ : ∃ l, accountPage mine (between chain) pending latest page size = some l := by
    unfold accountPage
    rw [if_neg (by omega)]
    dsimp only
    split
    · exact ⟨_, rfl⟩
    · exact ⟨_, rfl⟩
  obtain ⟨_, he⟩ := accountPage_eq hl
  obtain ⟨e1, e2⟩ := pos h0 h1 hp
  rw [e1, e2] at he
  have hs : scanTo (between chain) (max 1 (latest - 1000)) ((page - 1) * size + size) latest latest 0 = chain := by
    have hb := below_all hc
    cases latest with
    | zero =>
      rw [below_zero hc] at hb
      rw [← hb]
      rfl
    | succ n =>
      rw [scanTo, if_neg (by omega)]
      dsimp only
      rw [if_pos (by omega), List.append_nil, counted_all hc]
      have hz : n + 1 - 1000 = 0 := by omega
      rw [below_split 0 (n + 1) (by omega) hc.newestFirst, below_zero hc, List.append_nil] at hb
      rw [hz]
      exact hb
  rw [hl, he, hs]
  unfold pageOf listing
  rw [List.filter_append, List.filter_flatMap, List.flatMap_map]

example : [1, 2].map (accountPage (fun x => x % 2 == 0) (between [⟨3, 1, [70, 71]⟩, ⟨1, 2, [72, 74]⟩]) [90] 3 · 2) =
    [some [90, 70], some [72, 74]] := by decide +kernel

end Pages
