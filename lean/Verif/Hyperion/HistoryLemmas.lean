import Verif.Hyperion.HistorySpec
/-! # History of bridge transfers: lemmas -/
namespace History

/-! ## The archive -/

private theorem fold_max (a : Nat) : ∀ (b : List ((Nat × Nat) × Rec)) (m : Nat),
    b.foldl (fun m e => if e.1.1 = a then max m e.1.2 else m) m = max m (b.foldl (fun m e => if e.1.1 = a then max m e.1.2 else m) 0)
  | [], m => by rw [List.foldl_nil, List.foldl_nil]; omega
  | e :: b, m => by
    rw [List.foldl_cons, List.foldl_cons, fold_max a b, fold_max a b (if e.1.1 = a then max 0 e.1.2 else 0)]
    split <;> omega

theorem lastIndex_cons (e : (Nat × Nat) × Rec) (b : List ((Nat × Nat) × Rec)) (a : Nat) :
    lastIndex (e :: b) a = if e.1.1 = a then max e.1.2 (lastIndex b a) else lastIndex b a := by
  unfold lastIndex
  rw [List.foldl_cons, fold_max]
  split <;> omega

/-- The records of each account under 1, 2, 3, … -/
structure Holds (b : List ((Nat × Nat) × Rec)) (H : Nat → List Rec) : Prop where
  get : ∀ a i, KV.get b (a, i) = if i = 0 then none else (H a)[i - 1]?
  last : ∀ a, lastIndex b a = (H a).length

theorem Holds.put {b : List ((Nat × Nat) × Rec)} {H : Nat → List Rec} (h : Holds b H) (a : Nat) (r : Rec) :
    Holds (KV.set b (a, lastIndex b a + 1) r) (fun x => if x = a then H x ++ [r] else H x) := by
  have hnone : KV.get b (a, lastIndex b a + 1) = none := by
    rw [h.get, if_neg (by omega), h.last, Nat.add_sub_cancel]
    exact List.getElem?_eq_none (Nat.le_refl _)
  constructor
  · intro x i
    rw [KV.get_set, h.get]
    by_cases hx : x = a
    · subst hx
      rw [if_pos (rfl : x = x)]
      by_cases h0 : i = 0
      · subst h0
        rw [if_neg (by intro hc; cases hc), if_pos rfl, if_pos rfl]
      · rw [if_neg h0, if_neg h0]
        by_cases hi : i = lastIndex b x + 1
        · rw [if_pos (by rw [hi]), hi, Nat.add_sub_cancel, h.last, List.getElem?_append_right (Nat.le_refl _), Nat.sub_self]
          rfl
        · rw [if_neg (by intro hc; exact hi (Prod.mk.inj hc).2)]
          rw [h.last] at hi
          by_cases hlt : i - 1 < (H x).length
          · rw [List.getElem?_append_left hlt]
          · rw [List.getElem?_eq_none (by omega), List.getElem?_eq_none (by rw [List.length_append, List.length_singleton]; omega)]
    · rw [if_neg hx, if_neg (by intro hc; exact hx (Prod.mk.inj hc).1)]
  · intro x
    unfold KV.set
    rw [KV.del_of_get_none hnone, lastIndex_cons]
    dsimp only
    by_cases hx : a = x
    · subst hx
      rw [if_pos (rfl : a = a), if_pos (rfl : a = a), List.length_append, List.length_singleton, h.last]
      omega
    · rw [if_neg hx, if_neg (fun hc => hx hc.symm), h.last]

theorem historyOf_snoc (l : List Rec) (r : Rec) (a : Nat) :
    historyOf (l ++ [r]) a = if r.sender = a ∨ r.dest = a then historyOf l a ++ [r] else historyOf l a := by
  unfold historyOf
  rw [List.filter_append]
  split
  next h => rw [List.filter_cons_of_pos (by simpa using h)]; rfl
  next h => rw [List.filter_cons_of_neg (p := fun r : Rec => decide (r.sender = a ∨ r.dest = a)) (by simpa using h)]; exact List.append_nil _

theorem Holds.congr {b : List ((Nat × Nat) × Rec)} {H H' : Nat → List Rec} (h : Holds b H) (he : ∀ a, H a = H' a) : Holds b H' :=
  (funext he : H = H') ▸ h

theorem Holds.store {b : Book} {l : List Rec} (h : Holds b.byAccount (historyOf l)) (r : Rec) :
    Holds (b.store r).byAccount (historyOf (l ++ [r])) := by
  unfold Book.store
  dsimp only
  have h1 := h.put r.sender r
  by_cases hd : r.dest ≠ r.sender
  · rw [if_pos hd]
    refine (h1.put r.dest r).congr fun a => ?_
    rw [historyOf_snoc]
    by_cases h2 : a = r.dest
    · subst h2
      rw [if_pos (rfl : r.dest = r.dest), if_neg hd, if_pos (.inr rfl)]
    · rw [if_neg h2]
      by_cases h3 : a = r.sender
      · subst h3
        rw [if_pos rfl, if_pos (.inl rfl)]
      · rw [if_neg h3, if_neg (fun hc => hc.elim (fun e => h3 e.symm) (fun e => h2 e.symm))]
  · rw [if_neg hd]
    refine h1.congr fun a => ?_
    rw [historyOf_snoc]
    have hd' : r.dest = r.sender := Decidable.of_not_not hd
    by_cases h3 : a = r.sender
    · subst h3
      rw [if_pos rfl, if_pos (.inl rfl)]
    · rw [if_neg h3, if_neg (fun hc => hc.elim (fun e => h3 e.symm) (fun e => h3 (e.symm.trans hd')))]

theorem lastOf_snoc (n : Nat) (l : List Rec) (r : Rec) (h : 0 < n) : lastOf n (l ++ [r]) = lastOf (n - 1) l ++ [r] := by
  unfold lastOf
  rw [List.length_append, List.length_singleton, List.drop_append_of_le_length (by omega)]
  congr 2
  omega

theorem lastOf_length (n : Nat) (l : List Rec) : (lastOf n l).length = min n l.length := by
  unfold lastOf
  rw [List.length_drop]
  omega

theorem lastOf_lastOf {m n : Nat} (l : List Rec) (h : m ≤ n) : lastOf m (lastOf n l) = lastOf m l := by
  unfold lastOf
  rw [List.length_drop, List.drop_drop]
  congr 1
  omega

theorem pushRecent_eq (l : List Rec) (r : Rec) : pushRecent (lastOf 100 l) r = lastOf 100 (l ++ [r]) := by
  have he : pushRecent (lastOf 100 l) r = lastOf 100 (lastOf 100 l ++ [r]) := by
    generalize lastOf 100 l = k
    unfold pushRecent
    split
    · rfl
    · unfold lastOf
      rw [Nat.sub_eq_zero_of_le (by omega), List.drop_zero]
  rw [he, lastOf_snoc _ _ _ (by omega), lastOf_snoc _ _ _ (by omega), lastOf_lastOf _ (by omega)]

/-- What an archive holds when these records were stored in it. -/
structure Book.Of (b : Book) (l : List Rec) : Prop where
  holds : Holds b.byAccount (historyOf l)
  recent : b.recent = lastOf 100 l

theorem Book.Of.store {b : Book} {l : List Rec} (h : b.Of l) (r : Rec) : (b.store r).Of (l ++ [r]) :=
  ⟨h.holds.store r, by
    have : (b.store r).recent = pushRecent b.recent r := rfl
    rw [this, h.recent, pushRecent_eq]⟩

theorem book_init : Book.Of ⟨[], []⟩ [] :=
  ⟨⟨fun a i => by rw [KV.get_nil]; split <;> rfl, fun _ => rfl⟩, rfl⟩

theorem run_of : ∀ (log : List (Nat × Rec)) (s : St) (l1 l2 : List Rec), s.old.Of l1 → s.new.Of l2 →
    (run s log).old.Of (l1 ++ sameSide log 0) ∧ (run s log).new.Of (l2 ++ sameSide log 34801)
  | [], s, l1, l2, h1, h2 => by
    unfold run sameSide
    rw [List.filter_nil, List.filter_nil, List.map_nil, List.append_nil, List.append_nil]
    exact ⟨h1, h2⟩
  | (h, r) :: log, s, l1, l2, h1, h2 => by
    unfold run store
    by_cases hh : 34800 < h
    · rw [if_pos hh]
      have := run_of log { s with new := s.new.store r } l1 (l2 ++ [r]) h1 (h2.store r)
      have e1 : sameSide ((h, r) :: log) 0 = sameSide log 0 := by
        unfold sameSide
        rw [List.filter_cons_of_neg (by simp only [decide_eq_true_eq]; omega)]
      have e2 : sameSide ((h, r) :: log) 34801 = r :: sameSide log 34801 := by
        unfold sameSide
        rw [List.filter_cons_of_pos (by simp only [decide_eq_true_eq]; omega)]
        rfl
      rw [e1, e2]
      rw [List.append_assoc] at this
      exact this
    · rw [if_neg hh]
      have := run_of log { s with old := s.old.store r } (l1 ++ [r]) l2 (h1.store r) h2
      have e1 : sameSide ((h, r) :: log) 0 = r :: sameSide log 0 := by
        unfold sameSide
        rw [List.filter_cons_of_pos (by simp only [decide_eq_true_eq]; omega)]
        rfl
      have e2 : sameSide ((h, r) :: log) 34801 = sameSide log 34801 := by
        unfold sameSide
        rw [List.filter_cons_of_neg (by simp only [decide_eq_true_eq]; omega)]
      rw [e1, e2]
      rw [List.append_assoc] at this
      exact this

theorem at_of (log : List (Nat × Rec)) (height : Nat) : ((run init log).at height).Of (sameSide log height) := by
  have := run_of log init [] [] book_init book_init
  rw [List.nil_append, List.nil_append] at this
  unfold St.at
  by_cases hh : 34800 < height
  · rw [if_pos hh]
    have e : sameSide log height = sameSide log 34801 := by
      unfold sameSide
      congr 1
      apply List.filter_congr
      intro e _
      rw [decide_eq_decide]
      omega
    rw [e]
    exact this.2
  · rw [if_neg hh]
    have e : sameSide log height = sameSide log 0 := by
      unfold sameSide
      congr 1
      apply List.filter_congr
      intro e _
      rw [decide_eq_decide]
      omega
    rw [e]
    exact this.1

theorem slice_eq {b : List ((Nat × Nat) × Rec)} {H : Nat → List Rec} (h : Holds b H) (a : Nat) : ∀ (k lo : Nat),
    (List.range' (lo + 1) k).filterMap (fun i => KV.get b (a, i)) = ((H a).drop lo).take k
  | 0, lo => by rw [List.take_zero]; rfl
  | k + 1, lo => by
    rw [List.range'_succ, List.filterMap_cons, h.get, if_neg (by omega), Nat.add_sub_cancel, slice_eq h a k (lo + 1)]
    by_cases hl : lo < (H a).length
    · rw [List.getElem?_eq_getElem hl, List.drop_eq_getElem_cons hl, List.take_succ_cons]
    · rw [List.getElem?_eq_none (by omega), List.drop_eq_nil_of_le (by omega), List.drop_eq_nil_of_le (by omega), List.take_nil, List.take_nil]

theorem slice_last {b : List ((Nat × Nat) × Rec)} {H : Nat → List Rec} (h : Holds b H) (a left : Nat) :
    slice b a (lastIndex b a - left) (lastIndex b a) = lastOf left (H a) := by
  unfold slice lastOf
  rw [slice_eq h, h.last, List.take_of_length_le (by rw [List.length_drop]; omega)]

/-! ## The loops -/

theorem part_spec (limit lo hi : Nat) : ∀ (l : List Rec) (i : Nat) (acc : List Rec) (c : Nat), acc.length < limit →
    (part limit lo hi i acc c l).1 = acc ++ ((l.drop (lo - i)).take (hi - max lo i)).take (limit - acc.length) ∧
    ((part limit lo hi i acc c l).1.length < limit → (part limit lo hi i acc c l).2 = c + l.length)
  | [], i, acc, c, _ => by
    unfold part
    rw [List.drop_nil, List.take_nil, List.take_nil, List.append_nil]
    exact ⟨rfl, fun _ => rfl⟩
  | x :: xs, i, acc, c, hl => by
    unfold part
    dsimp only
    by_cases hin : lo ≤ i ∧ i < hi
    · rw [if_pos hin]
      have e1 : lo - i = 0 := by omega
      have e2 : hi - max lo i = (hi - max lo (i + 1)) + 1 := by omega
      have e3 : limit - acc.length = (limit - (acc ++ [x]).length) + 1 := by rw [List.length_append, List.length_singleton]; omega
      rw [e1, e2, e3, List.drop_zero, List.take_succ_cons, List.take_succ_cons]
      by_cases hf : limit ≤ (acc ++ [x]).length
      · rw [if_pos hf]
        have e4 : limit - (acc ++ [x]).length = 0 := by omega
        rw [e4, List.take_zero]
        exact ⟨rfl, fun h => absurd h (by dsimp only; omega)⟩
      · rw [if_neg hf]
        have ih := part_spec limit lo hi xs (i + 1) (acc ++ [x]) (c + 1) (by omega)
        have e5 : lo - (i + 1) = 0 := by omega
        rw [e5, List.drop_zero] at ih
        refine ⟨by rw [ih.1, List.append_assoc]; rfl, fun h => ?_⟩
        rw [ih.2 h, List.length_cons]
        omega
    · rw [if_neg hin, if_neg (by omega)]
      have ih := part_spec limit lo hi xs (i + 1) acc (c + 1) hl
      refine ⟨?_, fun h => by rw [ih.2 h, List.length_cons]; omega⟩
      rw [ih.1]
      by_cases hlo : lo ≤ i
      · have e1 : hi - max lo i = 0 := by omega
        have e2 : hi - max lo (i + 1) = 0 := by omega
        rw [e1, e2, List.take_zero, List.take_zero]
      · have e1 : lo - i = (lo - (i + 1)) + 1 := by omega
        have e2 : hi - max lo i = hi - max lo (i + 1) := by omega
        rw [e1, e2, List.drop_succ_cons]

theorem part_eq (limit lo hi : Nat) (l acc : List Rec) (c : Nat) (h : acc.length < limit) :
    (part limit lo hi 0 acc c l).1 = acc ++ ((l.drop lo).take (hi - lo)).take (limit - acc.length) ∧
    ((part limit lo hi 0 acc c l).1.length < limit → (part limit lo hi 0 acc c l).2 = c + l.length) := by
  have := part_spec limit lo hi l 0 acc c h
  rw [Nat.sub_zero, Nat.max_zero] at this
  exact this

theorem withdrawals_spec (u : UnderWay) (offset limit : Nat) :
    (withdrawals u offset limit).1 = ((u.unbatched ++ u.batched).drop offset).take limit := by
  unfold withdrawals
  dsimp only
  by_cases h0 : 0 < limit
  · rw [if_pos h0]
    have h1 := part_eq limit offset (offset + limit) u.unbatched [] 0 h0
    rw [List.nil_append, List.length_nil, Nat.sub_zero, Nat.zero_add, Nat.add_sub_cancel_left, List.take_take, Nat.min_self] at h1
    generalize part limit offset (offset + limit) 0 [] 0 u.unbatched = p at *
    split
    next hl =>
      have hc := h1.2 (by omega)
      have h2 := part_eq limit (offset - p.2) (offset - p.2 + (limit - p.1.length)) u.batched p.1 p.2 (by omega)
      rw [h2.1, Nat.add_sub_cancel_left, List.take_take, Nat.min_self, List.drop_append, List.take_append, ← h1.1, hc]
      congr 2
      rw [h1.1, List.length_take, List.length_drop] at hl ⊢
      omega
    next hl =>
      rw [h1.1, List.length_take, List.length_drop] at hl
      rw [h1.1, List.drop_append_of_le_length (by omega), List.take_append_of_le_length (by rw [List.length_drop]; omega)]
  · have : limit = 0 := by omega
    subst this
    rw [if_neg (Nat.lt_irrefl 0), if_neg (by omega), List.take_zero]

theorem underWay_spec (u : UnderWay) (offset limit : Nat) :
    underWay u offset limit = ((u.unbatched ++ u.batched).drop offset).take limit ++
      (u.deposits.drop offset).take (limit - (((u.unbatched ++ u.batched).drop offset).take limit).length) := by
  unfold underWay
  dsimp only
  rw [withdrawals_spec]
  generalize hw : ((u.unbatched ++ u.batched).drop offset).take limit = w
  split
  next hl =>
    have := part_eq limit offset (offset + limit) u.deposits w (withdrawals u offset limit).2 (by omega)
    rw [this.1, Nat.add_sub_cancel_left, List.take_take, Nat.min_eq_left (by omega)]
  next hl =>
    have e : limit - w.length = 0 := by omega
    rw [e, List.take_zero, List.append_nil]

theorem underWay_length (u : UnderWay) (offset limit : Nat) : (underWay u offset limit).length ≤ limit := by
  rw [underWay_spec, List.length_append, List.length_take, List.length_take, List.length_drop, List.length_drop]
  omega

theorem query_spec (log : List (Nat × Rec)) (height : Nat) (u : UnderWay) (a offset limit : Nat) :
    query (run init log) height u a offset limit =
      underWay u offset limit ++ (lastOf (limit - (underWay u offset limit).length) (historyOf (sameSide log height) a)).reverse := by
  unfold query
  dsimp only
  have h := (at_of log height).holds
  split
  next hl => rw [slice_last h]
  next hl =>
    have e : limit - (underWay u offset limit).length = 0 := by omega
    rw [e]
    unfold lastOf
    rw [Nat.sub_zero, List.drop_length]
    exact (List.append_nil _).symm

/-! ## Keys -/

theorem digits_mod : ∀ (n m i : Nat), n ≤ m → digits n (i % 10 ^ m) = digits n i
  | 0, _, _, _ => rfl
  | n + 1, m, i, h => by
    unfold digits
    rw [digits_mod n m i (by omega)]
    congr 1
    obtain ⟨k, rfl⟩ : ∃ k, m = n + (k + 1) := ⟨m - n - 1, by omega⟩
    rw [Nat.pow_add, Nat.mod_mul_right_div_self, Nat.mod_mod_of_dvd]
    exact ⟨10 ^ k, by rw [Nat.pow_succ]; omega⟩

theorem digits_lt : ∀ (n i j : Nat), i < 10 ^ n → j < 10 ^ n → (digits n i < digits n j ↔ i < j)
  | 0, i, j, hi, hj => by
    rw [Nat.pow_zero] at hi hj
    refine ⟨fun h => absurd h (by unfold digits; exact List.lt_irrefl []), fun h => by omega⟩
  | n + 1, i, j, hi, hj => by
    have hpos : 0 < 10 ^ n := Nat.pow_pos (by omega)
    rw [Nat.pow_succ, Nat.mul_comm] at hi hj
    have hi' : i / 10 ^ n < 10 := Nat.div_lt_of_lt_mul (by rw [Nat.mul_comm]; exact hi)
    have hj' : j / 10 ^ n < 10 := Nat.div_lt_of_lt_mul (by rw [Nat.mul_comm]; exact hj)
    unfold digits
    rw [List.cons_lt_cons_iff, Nat.mod_eq_of_lt hi', Nat.mod_eq_of_lt hj', ← digits_mod n n i (Nat.le_refl _), ← digits_mod n n j (Nat.le_refl _),
      digits_lt n _ _ (Nat.mod_lt _ hpos) (Nat.mod_lt _ hpos)]
    have ei := Nat.div_add_mod i (10 ^ n)
    have ej := Nat.div_add_mod j (10 ^ n)
    have mi := Nat.mod_lt i hpos
    have mj := Nat.mod_lt j hpos
    generalize 10 ^ n = p at *
    generalize i / p = qi at *
    generalize j / p = qj at *
    generalize i % p = ri at *
    generalize j % p = rj at *
    subst ei ej
    constructor
    · rintro (h | ⟨h, h2⟩)
      · have : p * (qi + 1) ≤ p * qj := Nat.mul_le_mul_left p h
        rw [Nat.mul_add, Nat.mul_one] at this
        omega
      · subst h
        omega
    · intro h
      by_cases hq : qi < qj
      · exact .inl hq
      · by_cases he : qi = qj
        · subst he
          exact .inr ⟨rfl, by omega⟩
        · have : p * (qj + 1) ≤ p * qi := Nat.mul_le_mul_left p (by omega)
          rw [Nat.mul_add, Nat.mul_one] at this
          omega

end History
