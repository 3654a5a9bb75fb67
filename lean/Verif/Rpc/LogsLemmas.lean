import Verif.Rpc.LogsSpec

/-! # Lemmas about filters -/

namespace LogQuery

theorem includes_iff (xs : List Nat) (a : Nat) : includes xs a = true ↔ a ∈ xs := by
  induction xs with
  | nil => exact ⟨(fun h => nomatch h), fun h => absurd h List.not_mem_nil⟩
  | cons x xs ih =>
    unfold includes
    by_cases h : x = a
    · rw [if_pos h]
      exact ⟨fun _ => by rw [h]; exact List.mem_cons_self, fun _ => rfl⟩
    · rw [if_neg h, ih, List.mem_cons]
      exact ⟨Or.inr, fun hh => hh.resolve_left (fun e => h e.symm)⟩

theorem topicsFit_iff (subs : List (List Nat)) (ts : List Nat) :
    topicsFit subs ts = true ↔ ∀ (i : Nat) (sub : List Nat), subs[i]? = some sub →
      ∃ t, ts[i]? = some t ∧ (sub = [] ∨ t ∈ sub) := by
  induction subs generalizing ts with
  | nil =>
    exact ⟨fun _ i sub h => (by rw [List.getElem?_nil] at h; exact nomatch h), fun _ => by
      cases ts <;> rfl⟩
  | cons s ss ih =>
    cases ts with
    | nil =>
      refine ⟨(fun h => nomatch h), fun h => ?_⟩
      obtain ⟨t, ht, _⟩ := h 0 s rfl
      exact nomatch ht
    | cons t ts =>
      unfold topicsFit
      rw [Bool.and_eq_true, Bool.or_eq_true, decide_eq_true_iff, includes_iff, ih,
        List.length_eq_zero_iff]
      constructor
      · rintro ⟨h1, h2⟩ i sub hs
        cases i with
        | zero =>
          rw [List.getElem?_cons_zero] at hs
          injection hs with hs
          subst hs
          exact ⟨t, rfl, h1⟩
        | succ i =>
          rw [List.getElem?_cons_succ] at hs ⊢
          exact h2 i sub hs
      · intro h
        refine ⟨?_, ?_⟩
        · obtain ⟨t', ht, hm⟩ := h 0 s rfl
          rw [List.getElem?_cons_zero] at ht
          injection ht with ht
          rw [ht]
          exact hm
        · intro i sub hs
          have := h (i + 1) sub (by rw [List.getElem?_cons_succ]; exact hs)
          rw [List.getElem?_cons_succ] at this
          exact this

theorem body_iff (c : Criteria) (l : Log) :
    keeps.body c l = true ↔ Matches c l := by
  unfold keeps.body Matches
  by_cases ha : c.addresses.length > 0 ∧ includes c.addresses l.address = false
  · rw [if_pos ha]
    refine ⟨(fun h => nomatch h), fun h => ?_⟩
    rcases h.1 with e | e
    · rw [e] at ha
      exact absurd ha.1 (by decide)
    · rw [(includes_iff _ _).2 e] at ha
      exact nomatch ha.2
  · rw [if_neg ha]
    have hadr : c.addresses = [] ∨ l.address ∈ c.addresses := by
      by_cases he : c.addresses = []
      · exact Or.inl he
      · right
        rw [← includes_iff]
        cases hi : includes c.addresses l.address with
        | true => rfl
        | false => exact absurd ⟨List.length_pos_iff.2 he, hi⟩ ha
    by_cases ht : c.topics.length > l.topics.length
    · rw [if_pos ht]
      refine ⟨(fun h => nomatch h), fun h => ?_⟩
      obtain ⟨t, hs, _⟩ := h.2 l.topics.length _ (List.getElem?_eq_getElem ht)
      rw [List.getElem?_eq_none (Nat.le_refl _)] at hs
      exact nomatch hs
    · rw [if_neg ht, topicsFit_iff]
      exact ⟨fun h => ⟨hadr, h⟩, fun h => h.2⟩

theorem keeps_none (c : Criteria) (l : Log) : keeps none none c l = true ↔ Matches c l :=
  body_iff c l

theorem filter_picked (c : Criteria) (ls : List Log) : Picked c ls (filterLogs none none c ls) := by
  induction ls with
  | nil => exact .nil
  | cons l ls ih =>
    unfold filterLogs
    by_cases h : keeps none none c l = true
    · rw [if_pos h]
      exact .take ((keeps_none c l).1 h) ih
    · rw [if_neg h]
      exact .drop (fun hm => h ((keeps_none c l).2 hm)) ih

theorem picked_append {c : Criteria} {a b x y : List Log} (h1 : Picked c a x) (h2 : Picked c b y) :
    Picked c (a ++ b) (x ++ y) := by
  induction h1 with
  | nil => exact h2
  | take hm _ ih => exact .take hm ih
  | drop hm _ ih => exact .drop hm ih

/-- There is only one way to pick. -/
theorem picked_unique {c : Criteria} {a x y : List Log} (h1 : Picked c a x) (h2 : Picked c a y) :
    x = y := by
  induction h1 generalizing y with
  | nil => cases h2; rfl
  | take hm _ ih =>
    cases h2 with
    | take _ h => rw [ih h]
    | drop hn _ => exact absurd hm hn
  | drop hn _ ih =>
    cases h2 with
    | take hm _ => exact absurd hm hn
    | drop _ h => exact ih h

theorem picked_none {c : Criteria} {a : List Log} (h : ∀ l ∈ a, ¬ Matches c l) : Picked c a [] := by
  induction a with
  | nil => exact .nil
  | cons l ls ih =>
    exact .drop (h l List.mem_cons_self) (ih fun x hx => h x (List.mem_cons_of_mem _ hx))

theorem picked_mem {c : Criteria} {a x : List Log} (h : Picked c a x) (l : Log) :
    l ∈ x ↔ l ∈ a ∧ Matches c l := by
  induction h with
  | nil => exact ⟨fun h => absurd h List.not_mem_nil, fun h => absurd h.1 List.not_mem_nil⟩
  | @take k all got hm _ ih =>
    rw [List.mem_cons, List.mem_cons, ih]
    constructor
    · rintro (rfl | ⟨h1, h2⟩)
      · exact ⟨Or.inl rfl, hm⟩
      · exact ⟨Or.inr h1, h2⟩
    · rintro ⟨rfl | h1, h2⟩
      · exact Or.inl rfl
      · exact Or.inr ⟨h1, h2⟩
  | @drop k all got hn _ ih =>
    rw [List.mem_cons, ih]
    constructor
    · exact fun ⟨h1, h2⟩ => ⟨Or.inr h1, h2⟩
    · rintro ⟨rfl | h1, h2⟩
      · exact absurd h2 hn
      · exact ⟨h1, h2⟩

/-! ## Bloom filters -/

theorem sub_or_left {m b : Nat} (x : Nat) (h : b &&& m = m) : (b ||| x) &&& m = m := by
  apply Nat.eq_of_testBit_eq
  intro i
  have := congrArg (fun n => n.testBit i) h
  simp only [Nat.testBit_and, Nat.testBit_or] at this ⊢
  revert this
  cases b.testBit i <;> cases m.testBit i <;> cases x.testBit i <;> decide

theorem sub_or_right {m b : Nat} (x : Nat) (h : b &&& m = m) : (x ||| b) &&& m = m := by
  rw [Nat.or_comm]
  exact sub_or_left x h

theorem items_has (mask : Item → Nat) {is : List Item} {i : Item} (h : i ∈ is) :
    itemsBloom mask is &&& mask i = mask i := by
  induction is with
  | nil => exact absurd h List.not_mem_nil
  | cons x xs ih =>
    unfold itemsBloom
    rcases List.mem_cons.1 h with rfl | h
    · exact sub_or_left _ (Nat.and_self _)
    · exact sub_or_right _ (ih h)

theorem logs_has (mask : Item → Nat) {ls : List Log} {l : Log} (h : l ∈ ls) {i : Item}
    (hi : i ∈ Item.address l.address :: l.topics.map .topic) :
    logsBloom mask ls &&& mask i = mask i := by
  induction ls with
  | nil => exact absurd h List.not_mem_nil
  | cons x xs ih =>
    unfold logsBloom
    rcases List.mem_cons.1 h with rfl | h
    · exact sub_or_left _ (items_has mask hi)
    · exact sub_or_right _ (ih h)

theorem fold_keeps (mask : Item → Nat) (txs : List Tx) {b m : Nat} (h : b &&& m = m) :
    txs.foldl (addBloom mask) b &&& m = m := by
  induction txs generalizing b with
  | nil => exact h
  | cons t ts ih =>
    rw [List.foldl_cons]
    apply ih
    unfold addBloom
    split
    · exact sub_or_left _ h
    · exact h

theorem fold_has (mask : Item → Nat) {txs : List Tx} {t : Tx} (ht : t ∈ txs) {l : Log}
    (hl : l ∈ t.emitted) {i : Item} (hi : i ∈ Item.address l.address :: l.topics.map .topic)
    (b : Nat) : txs.foldl (addBloom mask) b &&& mask i = mask i := by
  induction txs generalizing b with
  | nil => exact absurd ht List.not_mem_nil
  | cons x xs ih =>
    rw [List.foldl_cons]
    rcases List.mem_cons.1 ht with rfl | ht
    · apply fold_keeps
      unfold addBloom
      rw [if_pos (List.length_pos_of_mem hl)]
      exact sub_or_right _ (logs_has mask hl hi)
    · exact ih ht _

theorem mem_resultLogs {ch : Chain} {h : Nat} {l : Log} (hl : l ∈ resultLogs ch h) :
    ∃ t ∈ ch.txs h, l ∈ t.emitted := by
  unfold resultLogs at hl
  obtain ⟨ls, hls, hm⟩ := List.mem_flatten.1 hl
  obtain ⟨t, ht, rfl⟩ := List.mem_map.1 hls
  refine ⟨t, ht, ?_⟩
  unfold reported at hm
  split at hm
  · exact hm
  · exact absurd hm List.not_mem_nil

theorem anyIn_of {mask : Item → Nat} {bloom : Nat} {is : List Item} {i : Item} (h : i ∈ is)
    (hb : bloom &&& mask i = mask i) : anyIn mask bloom is = true := by
  induction is with
  | nil => exact absurd h List.not_mem_nil
  | cons x xs ih =>
    unfold anyIn
    rcases List.mem_cons.1 h with rfl | h
    · have : lookup mask bloom i = true := decide_eq_true hb
      rw [if_pos this]
    · split
      · rfl
      · exact ih h

theorem topicsIn_of {mask : Item → Nat} {bloom : Nat} {subs : List (List Nat)}
    (h : ∀ sub ∈ subs, sub = [] ∨ ∃ t ∈ sub, bloom &&& mask (.topic t) = mask (.topic t)) :
    topicsIn mask bloom subs = true := by
  induction subs with
  | nil => rfl
  | cons s ss ih =>
    unfold topicsIn
    rw [Bool.and_eq_true, Bool.or_eq_true, decide_eq_true_iff, List.length_eq_zero_iff]
    refine ⟨?_, ih fun x hx => h x (List.mem_cons_of_mem _ hx)⟩
    rcases h s List.mem_cons_self with e | ⟨t, ht, hb⟩
    · exact Or.inl e
    · exact Or.inr (anyIn_of (List.mem_map.2 ⟨t, ht, rfl⟩) hb)

/-- No false negatives. -/
theorem bloom_complete (mask : Item → Nat) {ch : Chain} {c : Criteria} {h : Nat} {l : Log}
    (hl : l ∈ resultLogs ch h) (hm : Matches c l) :
    bloomFilter mask (blockBloom mask (ch.txs h)) c = true := by
  obtain ⟨t, ht, hle⟩ := mem_resultLogs hl
  have hhas : ∀ i ∈ Item.address l.address :: l.topics.map .topic,
      blockBloom mask (ch.txs h) &&& mask i = mask i := fun i hi => fold_has mask ht hle hi 0
  unfold bloomFilter
  have hno : ¬ (c.addresses.length > 0 ∧
      anyIn mask (blockBloom mask (ch.txs h)) (c.addresses.map .address) = false) := by
    rintro ⟨h1, h2⟩
    rcases hm.1 with e | e
    · rw [e] at h1
      exact absurd h1 (by decide)
    · rw [anyIn_of (List.mem_map.2 ⟨_, e, rfl⟩) (hhas _ List.mem_cons_self)] at h2
      exact nomatch h2
  rw [if_neg hno]
  apply topicsIn_of
  intro sub hsub
  obtain ⟨i, hi, hget⟩ := List.getElem_of_mem hsub
  have hsome : c.topics[i]? = some sub := by rw [List.getElem?_eq_getElem hi, hget]
  obtain ⟨t', ht', hor⟩ := hm.2 i sub hsome
  rcases hor with e | e
  · exact Or.inl e
  · refine Or.inr ⟨t', e, hhas _ (List.mem_cons_of_mem _ (List.mem_map.2 ⟨t', ?_, rfl⟩))⟩
    exact List.mem_of_getElem? ht'

theorem blockLogs_picked (mask : Item → Nat) (ch : Chain) (c : Criteria) (h : Nat) :
    Picked c (resultLogs ch h) (blockLogs mask ch c h) := by
  unfold blockLogs
  by_cases hb : bloomFilter mask (blockBloom mask (ch.txs h)) c = true
  · rw [if_pos hb]
    exact filter_picked c _
  · rw [if_neg hb]
    exact picked_none fun l hl hm => hb (bloom_complete mask hl hm)

/-- What a scan of blocks that are all there gives. -/
theorem scan_there (mask : Item → Nat) (ch : Chain) (c : Criteria) (limit : Nat) (n h : Nat)
    (acc : List Log) (h1 : ch.base ≤ h) (h2 : h + n ≤ ch.head + 1) :
    ∃ got, Picked c (logsFrom ch h n) got ∧
      scan mask ch c limit n h acc =
        if n = 0 ∨ acc.length + got.length ≤ limit then .logs (acc ++ got) else .error := by
  induction n generalizing h acc with
  | zero => exact ⟨[], .nil, by rw [if_pos (Or.inl rfl), List.append_nil]; rfl⟩
  | succ n ih =>
    have hb : Picked c (allLogs ch h) (blockLogs mask ch c h ++ cronBlockLogs ch c h) :=
      picked_append (blockLogs_picked mask ch c h) (filter_picked c _)
    obtain ⟨got, hp, he⟩ := ih (h + 1) (acc ++ blockLogs mask ch c h ++ cronBlockLogs ch c h)
      (by omega) (by omega)
    refine ⟨_, picked_append hb hp, ?_⟩
    have hres : hasResults ch (h : Int) = true := decide_eq_true (by omega)
    unfold scan
    rw [if_pos hres, Int.toNat_natCast]
    have hlen : (acc ++ blockLogs mask ch c h ++ cronBlockLogs ch c h).length =
        acc.length + (blockLogs mask ch c h).length + (cronBlockLogs ch c h).length := by
      rw [List.length_append, List.length_append]
    have hlen2 : (blockLogs mask ch c h ++ cronBlockLogs ch c h ++ got).length =
        (blockLogs mask ch c h).length + (cronBlockLogs ch c h).length + got.length := by
      rw [List.length_append, List.length_append]
    by_cases hlim : acc.length + (blockLogs mask ch c h).length +
        (cronBlockLogs ch c h).length > limit
    · rw [if_pos hlim, if_neg (by omega)]
    · rw [if_neg hlim, show ((h : Int) + 1) = ((h + 1 : Nat) : Int) from rfl, he, hlen, hlen2]
      have hassoc : acc ++ blockLogs mask ch c h ++ cronBlockLogs ch c h ++ got =
          acc ++ (blockLogs mask ch c h ++ cronBlockLogs ch c h ++ got) := by
        simp only [List.append_assoc]
      rw [hassoc]
      by_cases hn : n = 0
      · subst hn
        cases hp
        rw [if_pos (Or.inl rfl), if_pos]
        right
        rw [List.length_nil]
        omega
      · by_cases ht : acc.length + (blockLogs mask ch c h).length +
            (cronBlockLogs ch c h).length + got.length ≤ limit
        · rw [if_pos (Or.inr ht), if_pos (Or.inr (by omega))]
        · rw [if_neg (by omega), if_neg (by omega)]

/-- A scan that runs past the last block. -/
theorem scan_past (mask : Item → Nat) (ch : Chain) (c : Criteria) (limit : Nat) (n h : Nat)
    (acc : List Log) (h1 : ch.base ≤ h) (h2 : ch.head + 1 < h + n) (h3 : h ≤ ch.head + 1) :
    scan mask ch c limit n h acc = .logs [] ∨ scan mask ch c limit n h acc = .error := by
  induction n generalizing h acc with
  | zero => omega
  | succ n ih =>
    unfold scan
    by_cases hres : hasResults ch (h : Int) = true
    · rw [if_pos hres]
      split
      · exact Or.inr rfl
      · have hh : h ≤ ch.head := by
          have := of_decide_eq_true hres
          omega
        exact ih (h + 1) _ (by omega) (by omega) (by omega)
    · rw [if_neg hres]
      exact Or.inl rfl

end LogQuery
