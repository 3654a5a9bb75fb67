import Verif.Hyperion.HistoryLemmas
/-! # History of bridge transfers: the theorems -/
namespace History

/-- Account 1 sends to 2, 2 sends to itself, 3 sends to 1. -/
def three : List (Nat × Rec) := [(40000, ⟨7, 1, 2⟩), (40001, ⟨8, 2, 2⟩), (40005, ⟨9, 3, 1⟩)]

/-- Two withdrawals and two deposits of account 1. -/
def busy : UnderWay := ⟨[⟨21, 1, 5⟩], [⟨20, 1, 6⟩], [⟨31, 1, 1⟩, ⟨30, 1, 1⟩]⟩

/-! ## The archive -/

/-- Whatever was stored: under 1, 2, 3, … the archive holds exactly the finished transfers that an account sent or received, each once, in the order in
which they were stored, and no record is ever overwritten. (Of those stored on the same side of height 34800.) -/
theorem archive_holds (log : List (Nat × Rec)) (height a : Nat) :
    (∀ i, KV.get ((run init log).at height).byAccount (a, i + 1) = (historyOf (sameSide log height) a)[i]?) ∧
    KV.get ((run init log).at height).byAccount (a, 0) = none := by
  have h := (at_of log height).holds
  refine ⟨fun i => ?_, ?_⟩
  · rw [h.get, if_neg (by omega), Nat.add_sub_cancel]
  · rw [h.get, if_pos rfl]

example : (List.range 5).map (fun i => KV.get ((run init three).at 50000).byAccount (1, i)) =
    [none, some ⟨7, 1, 2⟩, some ⟨9, 3, 1⟩, none, none] ∧
    (List.range 4).map (fun i => KV.get ((run init three).at 50000).byAccount (2, i)) = [none, some ⟨7, 1, 2⟩, some ⟨8, 2, 2⟩, none] := by
  decide +kernel

/-- The list for all accounts holds the last hundred. -/
theorem recent_holds (log : List (Nat × Rec)) (height : Nat) :
    ((run init log).at height).recent = lastOf 100 (sameSide log height) := (at_of log height).recent

/-- Keys in the archive are ordered as the numbers they are made from, as long as those are 64 bits long: reading them in order is reading in order of
time, and the last one is the newest. -/
theorem keys_in_order {i j : Nat} (hi : i < 18446744073709551616) (hj : j < 18446744073709551616) : indexKey i < indexKey j ↔ i < j :=
  digits_lt 20 i j (Nat.lt_of_lt_of_le hi (by decide)) (Nat.lt_of_lt_of_le hj (by decide))

example : indexKey 9 < indexKey 10 ∧ ¬ indexKey 100 < indexKey 99 := by decide +kernel

/-! ## Pages -/

private theorem page_some {s : St} {height a page size : Nat} {u : UnderWay} {l : List Rec} (h : accountPage s height u a page size = some l) :
    (0 < page ∧ 0 < size ∧ size ≤ 100) ∧ l = query s height u a ((page - 1) * size % 18446744073709551616) size := by
  unfold accountPage at h
  split at h
  · cases h
  next hg => exact ⟨by omega, (Option.some.inj h).symm⟩

/-- Pages are given for sizes from 1 to 100, and never hold more than that. -/
theorem page_size {log : List (Nat × Rec)} {height a page size : Nat} {u : UnderWay} :
    ((∃ l, accountPage (run init log) height u a page size = some l) ↔ 0 < page ∧ 0 < size ∧ size ≤ 100) ∧
    ∀ l, accountPage (run init log) height u a page size = some l → l.length ≤ size := by
  refine ⟨⟨fun ⟨l, h⟩ => (page_some h).1, fun h => ?_⟩, fun l h => ?_⟩
  · unfold accountPage
    rw [if_neg (by omega)]
    exact ⟨_, rfl⟩
  · obtain ⟨_, rfl⟩ := page_some h
    have := underWay_length u ((page - 1) * size % 18446744073709551616) size
    rw [query_spec, List.length_append, List.length_reverse, lastOf_length]
    omega

/-- The first page shows the newest: what is under way, then what is finished, newest first, without gaps. -/
theorem first_page {log : List (Nat × Rec)} {height a size : Nat} {u : UnderWay} (h1 : 0 < size) (h2 : size ≤ 100) :
    accountPage (run init log) height u a 1 size = some (pageOf (everything u (sameSide log height) a) 1 size) := by
  unfold accountPage
  rw [if_neg (by omega)]
  have e : (1 - 1) * size % 18446744073709551616 = 0 := by rw [Nat.sub_self, Nat.zero_mul, Nat.zero_mod]
  have e' : (1 - 1) * size = 0 := by rw [Nat.sub_self, Nat.zero_mul]
  rw [e, query_spec, underWay_spec, List.drop_zero, List.drop_zero]
  unfold pageOf everything
  rw [e', List.drop_zero, List.take_append (l₁ := u.unbatched ++ u.batched ++ u.deposits), List.take_append (l₁ := u.unbatched ++ u.batched), List.take_reverse]
  unfold lastOf
  have e2 : size - ((u.unbatched ++ u.batched).take size).length = size - (u.unbatched ++ u.batched).length := by
    rw [List.length_take]; omega
  rw [e2]
  have e3 : size - ((u.unbatched ++ u.batched).take size ++ u.deposits.take (size - (u.unbatched ++ u.batched).length)).length =
      size - (u.unbatched ++ u.batched ++ u.deposits).length := by
    rw [List.length_append, List.length_take, List.length_take, List.length_append (bs := u.deposits)]
    omega
  rw [e3]

example : accountPage (run init three) 50000 busy 1 1 5 =
    some [⟨21, 1, 5⟩, ⟨20, 1, 6⟩, ⟨31, 1, 1⟩, ⟨30, 1, 1⟩, ⟨9, 3, 1⟩] := by decide +kernel

/-- Page by page everything should be shown. Proved only for accounts that have withdrawals under way and nothing else; the theorems below show how it
fails for others. -/
theorem page_partial {log : List (Nat × Rec)} {height a page size : Nat} {u : UnderWay} (h0 : 0 < page) (h1 : 0 < size) (h2 : size ≤ 100)
    (hp : page * size < 18446744073709551616) (hd : u.deposits = []) (hf : historyOf (sameSide log height) a = []) :
    accountPage (run init log) height u a page size = some (pageOf (everything u (sameSide log height) a) page size) := by
  unfold accountPage
  rw [if_neg (by omega)]
  have e : (page - 1) * size % 18446744073709551616 = (page - 1) * size := by
    obtain ⟨q, rfl⟩ : ∃ q, page = q + 1 := ⟨page - 1, by omega⟩
    rw [Nat.add_mul, Nat.one_mul] at hp
    rw [Nat.add_sub_cancel]
    exact Nat.mod_eq_of_lt (by omega)
  unfold pageOf everything
  rw [e, query_spec, underWay_spec, hd, hf, List.drop_nil, List.take_nil, List.append_nil, List.append_nil, List.reverse_nil, List.append_nil]
  unfold lastOf
  rw [List.drop_nil, List.reverse_nil, List.append_nil]

example : [1, 2].map (accountPage init 50000 ⟨[⟨21, 1, 5⟩], [⟨20, 1, 6⟩, ⟨19, 1, 6⟩], []⟩ 1 · 2) =
    [some [⟨21, 1, 5⟩, ⟨20, 1, 6⟩], some [⟨19, 1, 6⟩]] := by decide +kernel

/-- Whatever page is asked for, its finished transfers are from the newest `size`. So a finished transfer that is not among these is on no page of that
size; and since `size` is at most 100, one with a hundred newer ones is on no page at all. -/
theorem older_on_no_page {log : List (Nat × Rec)} {height a : Nat} {u : UnderWay} {x : Rec} {size : Nat}
    (hu : x ∉ u.unbatched ∧ x ∉ u.batched ∧ x ∉ u.deposits) (hold : x ∉ lastOf size (historyOf (sameSide log height) a)) :
    ∀ page l, accountPage (run init log) height u a page size = some l → x ∉ l := by
  intro page l h hx
  obtain ⟨_, rfl⟩ := page_some h
  rw [query_spec, List.mem_append, List.mem_reverse, underWay_spec, List.mem_append] at hx
  rcases hx with (hx | hx) | hx
  · have := List.mem_of_mem_drop (List.mem_of_mem_take hx)
    rw [List.mem_append] at this
    exact this.elim hu.1 hu.2.1
  · exact hu.2.2 (List.mem_of_mem_drop (List.mem_of_mem_take hx))
  · rw [← lastOf_lastOf _ (Nat.sub_le _ _)] at hx
    exact hold (List.mem_of_mem_drop hx)

/-- With nothing under way all pages are the same. -/
theorem all_pages_alike {log : List (Nat × Rec)} {height a page size : Nat} (h0 : 0 < page) :
    accountPage (run init log) height ⟨[], [], []⟩ a page size = accountPage (run init log) height ⟨[], [], []⟩ a 1 size := by
  unfold accountPage
  by_cases hg : size = 0 ∨ 100 < size
  · rw [if_pos (.inr hg), if_pos (.inr hg)]
  · rw [if_neg (by omega), if_neg (by omega), query_spec, query_spec]
    have e : ∀ offset, underWay ⟨[], [], []⟩ offset size = [] := fun offset => by
      rw [underWay_spec]
      dsimp only
      rw [List.append_nil, List.drop_nil, List.take_nil, List.take_nil, List.append_nil]
    rw [e, e]

/-- Account 1 has two finished transfers. On pages of one, the newer is on every page and the older on none. -/
example : [1, 2, 3].map (accountPage (run init three) 50000 ⟨[], [], []⟩ 1 · 1) =
    [some [⟨9, 3, 1⟩], some [⟨9, 3, 1⟩], some [⟨9, 3, 1⟩]] := by decide +kernel

private theorem mem_take_index {l : List Rec} {x : Rec} {i m : Nat} (hn : l.Nodup) (hi : l[i]? = some x) (h : x ∈ l.take m) : i < m := by
  obtain ⟨j, hj, he⟩ := List.mem_iff_getElem.1 h
  rw [List.length_take] at hj
  rw [List.getElem_take] at he
  obtain ⟨hi', he'⟩ := List.getElem?_eq_some_iff.1 hi
  have := List.pairwise_iff_getElem.1 hn
  by_cases hc : i < m
  · exact hc
  · exact absurd (he.trans he'.symm) (this j i (by omega) hi' (by omega))

private theorem mem_drop_index {l : List Rec} {x : Rec} {i o : Nat} (hn : l.Nodup) (hi : l[i]? = some x) (h : x ∈ l.drop o) : o ≤ i := by
  obtain ⟨j, hj, he⟩ := List.mem_iff_getElem.1 h
  rw [List.length_drop] at hj
  rw [List.getElem_drop] at he
  obtain ⟨hi', he'⟩ := List.getElem?_eq_some_iff.1 hi
  have := List.pairwise_iff_getElem.1 hn
  by_cases hc : o ≤ i
  · exact hc
  · exact absurd (he'.trans he.symm) (this i (o + j) (by omega) (by omega) (by omega))

/-- Deposits under way go missing behind withdrawals: the positions of deposits are compared with those of the page without regard to the withdrawals
before them. A deposit that these push from the first page is on no other. -/
theorem deposits_on_no_page {log : List (Nat × Rec)} {height a size i : Nat} {u : UnderWay} {x : Rec} (hx : u.deposits[i]? = some x)
    (hnd : u.deposits.Nodup) (hout : x ∉ u.unbatched ∧ x ∉ u.batched) (hfin : x ∉ sameSide log height) (hi : i < size)
    (hpush : size ≤ u.unbatched.length + u.batched.length + i) :
    ∀ page l, page * size < 18446744073709551616 → accountPage (run init log) height u a page size = some l → x ∉ l := by
  intro page l hp h hmem
  obtain ⟨⟨h0, _, _⟩, rfl⟩ := page_some h
  obtain ⟨q, rfl⟩ : ∃ q, page = q + 1 := ⟨page - 1, by omega⟩
  rw [Nat.add_mul, Nat.one_mul] at hp
  rw [Nat.add_sub_cancel, Nat.mod_eq_of_lt (by omega), query_spec, List.mem_append, List.mem_reverse, underWay_spec, List.mem_append] at hmem
  rcases hmem with (hm | hm) | hm
  · have := List.mem_of_mem_drop (List.mem_of_mem_take hm)
    rw [List.mem_append] at this
    exact this.elim hout.1 hout.2
  · by_cases hq : q = 0
    · subst hq
      rw [Nat.zero_mul, List.drop_zero, List.drop_zero] at hm
      have := mem_take_index hnd hx hm
      rw [List.length_take, List.length_append] at this
      omega
    · have := mem_drop_index hnd hx (List.mem_of_mem_take hm)
      have hs : 1 * size ≤ q * size := Nat.mul_le_mul_right size (by omega)
      rw [Nat.one_mul] at hs
      omega
  · exact hfin (List.mem_filter.1 (List.mem_of_mem_drop hm)).1

/-- Both deposits are on no page of two. -/
example : [1, 2, 3].map (accountPage init 50000 busy 1 · 2) = [some [⟨21, 1, 5⟩, ⟨20, 1, 6⟩], some [], some []] := by decide +kernel

/-- The list for all accounts is longer than was asked for: all of the last hundred finished transfers come on top. -/
theorem all_page_shows {log : List (Nat × Rec)} {height size : Nat} {u : UnderWay} (h1 : 0 < size) (h2 : size ≤ 100) :
    allPage (run init log) height u size =
      some ((u.unbatched ++ u.batched ++ u.deposits).take size ++ (lastOf 100 (sameSide log height)).reverse) := by
  unfold allPage queryAll
  rw [if_neg (by omega), underWay_spec, List.drop_zero, List.drop_zero, recent_holds, List.take_append (l₁ := u.unbatched ++ u.batched)]
  have e2 : size - ((u.unbatched ++ u.batched).take size).length = size - (u.unbatched ++ u.batched).length := by
    rw [List.length_take]; omega
  rw [e2]

/-- A page of one with five transfers. -/
example : (allPage (run init three) 50000 busy 1).map (·.length) = some 4 := by decide +kernel

/-- What was finished by height 34800 is not shown any more after it: the archive that was used until then is not read again. -/
theorem forgotten_at_switch {log : List (Nat × Rec)} {height a page size : Nat} {u : UnderWay} {l : List Rec} (hold : ∀ e ∈ log, e.1 ≤ 34800)
    (hh : 34800 < height) (h : accountPage (run init log) height u a page size = some l) :
    ∀ x ∈ l, x ∈ u.unbatched ∨ x ∈ u.batched ∨ x ∈ u.deposits := by
  intro x hx
  obtain ⟨_, rfl⟩ := page_some h
  have e : sameSide log height = [] := by
    unfold sameSide
    rw [List.map_eq_nil_iff, List.filter_eq_nil_iff]
    intro e he hc
    have := hold e he
    simp only [decide_eq_true_eq] at hc
    omega
  rw [query_spec, e, List.mem_append, List.mem_reverse, underWay_spec, List.mem_append] at hx
  rcases hx with (hx | hx) | hx
  · have := List.mem_of_mem_drop (List.mem_of_mem_take hx)
    rw [List.mem_append] at this
    exact this.elim .inl (fun h => .inr (.inl h))
  · exact .inr (.inr (List.mem_of_mem_drop (List.mem_of_mem_take hx)))
  · exact absurd (List.mem_of_mem_drop hx) List.not_mem_nil

example : (accountPage (run init [(30000, ⟨7, 1, 2⟩)]) 34800 ⟨[], [], []⟩ 1 1 10, accountPage (run init [(30000, ⟨7, 1, 2⟩)]) 34801 ⟨[], [], []⟩ 1 1 10) =
    (some [⟨7, 1, 2⟩], some []) := by decide +kernel

end History
