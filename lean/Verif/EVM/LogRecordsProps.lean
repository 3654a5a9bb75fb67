import Verif.EVM.LogRecordsLemmas
/-!
# Properties of records of logs (C115)

The property: what is kept of a log gives the same log back, and records that pass validation stand for exactly one
log each. The first part is proved; the second is false: texts of topics are not looked at and those of hashes hardly.
-/

namespace LogRecords

/-- Texts of hashes and addresses, of any spelling, are read as the bytes they were written from, and longer or
shorter ones are cut or filled on the left. -/
theorem texts_read {b : List Nat} (hb : ∀ x ∈ b, x < 256) (up : List Nat → Nat → Bool) :
    toHash (hashText b) = fit 32 b ∧ toHash (addressText up b) = fit 32 b ∧ toAddress (addressText up b) = fit 20 b ∧
      toAddress (hashText b) = fit 20 b := by
  have h1 : fromHex (hashText b) = b := fromHex_of_val (digits_val (nibbles_lt hb))
  have h2 : fromHex (addressText up b) = b := fromHex_of_val (spell_val _ _ (nibbles_lt hb))
  unfold toHash toAddress
  rw [h1, h2]
  exact ⟨rfl, rfl, rfl, rfl⟩

theorem hash_round_trip {h : List Nat} (hb : Bytes 32 h) : toHash (hashText h) = h := by
  rw [(texts_read hb.2 (fun _ _ => false)).1, fit_exact hb.1]

theorem address_round_trip (up : List Nat → Nat → Bool) {a : List Nat} (hb : Bytes 20 a) :
    toAddress (addressText up a) = a := by
  rw [(texts_read hb.2 up).2.2.1, fit_exact hb.1]

/-- **Logs come back**: the record of a log gives the log. -/
theorem log_round_trip (up : List Nat → Nat → Bool) {l : EthLog} (h : WellFormed l) : toEth (fromEth up l) = l := by
  have ht : (l.topics.map hashText).map toHash = l.topics := by
    rw [List.map_map]
    have : l.topics.map (toHash ∘ hashText) = l.topics.map id :=
      List.map_congr_left fun t ht => hash_round_trip (h.topics t ht)
    rw [this, List.map_id]
  unfold toEth fromEth
  dsimp only
  rw [ht, address_round_trip up h.address, hash_round_trip h.txHash, hash_round_trip h.blockHash]

/-- All logs of a transaction come back, in order. -/
theorem logs_round_trip (up : List Nat → Nat → Bool) (hash : List Nat) {ls : List EthLog}
    (h : ∀ l ∈ ls, WellFormed l) : txToEth (txFromEth up hash ls) = ls := by
  unfold txToEth txFromEth
  rw [List.map_map]
  have : ls.map (toEth ∘ fromEth up) = ls.map id := List.map_congr_left fun l hl => log_round_trip up (h l hl)
  rw [this, List.map_id]

/-- Different logs have different records. -/
theorem records_differ (up : List Nat → Nat → Bool) {l l' : EthLog} (h : WellFormed l) (h' : WellFormed l')
    (e : fromEth up l = fromEth up l') : l = l' := by
  rw [← log_round_trip up h, e, log_round_trip up h']

/-- **What passes validation** of the records of logs: those with hashes that are not zero and a block. -/
theorem record_valid_iff (up : List Nat → Nat → Bool) {l : EthLog} (h : WellFormed l) :
    validate (fromEth up l) = true ↔ NonZero l.blockHash ∧ l.blockNumber ≠ 0 ∧ NonZero l.txHash := by
  have ha : isHexAddress (addressText up l.address) = true := by
    have hv := spell_val (up l.address) 0 (nibbles_lt h.address.2)
    have hl := congrArg List.length hv
    rw [List.length_map, List.length_map, nibbles_length, h.address.1] at hl
    unfold isHexAddress
    have hs : strip (addressText up l.address) = spell (up l.address) 0 (nibbles l.address) := rfl
    rw [hs, hl]
    simp only [Nat.reduceMul, BEq.rfl, Bool.true_and, List.all_eq_true]
    intro c hc
    have : val c ∈ (spell (up l.address) 0 (nibbles l.address)).map val := List.mem_map_of_mem hc
    rw [hv] at this
    obtain ⟨n, _, e⟩ := List.mem_map.1 this
    rw [← e]
    rfl
  have he : ∀ x, Bytes 32 x → (isEmptyHash (hashText x) = true ↔ ¬ NonZero x) := by
    intro x hx
    unfold isEmptyHash
    rw [hash_round_trip hx, beq_iff_eq, zero_iff hx.1]
  unfold validate fromEth
  dsimp only
  rw [ha]
  by_cases h1 : NonZero l.blockHash
  · have e1 : isEmptyHash (hashText l.blockHash) = false := by
      cases hh : isEmptyHash (hashText l.blockHash) with
      | false => rfl
      | true => exact absurd h1 ((he _ h.blockHash).1 hh)
    by_cases h2 : l.blockNumber = 0
    · simp [e1, h2]
    · by_cases h3 : NonZero l.txHash
      · have e3 : isEmptyHash (hashText l.txHash) = false := by
          cases hh : isEmptyHash (hashText l.txHash) with
          | false => rfl
          | true => exact absurd h3 ((he _ h.txHash).1 hh)
        simp [e1, h2, e3, h1, h3]
      · have e3 := (he _ h.txHash).2 h3
        simp [e1, h2, e3, h3]
  · have e1 := (he _ h.blockHash).2 h1
    simp [e1, h1]

/-- Logs of a transaction pass if it has a hash, each of them passes, and each is of this transaction. -/
theorem transaction_valid_iff (up : List Nat → Nat → Bool) {hash : List Nat} (hh : Bytes 32 hash) {ls : List EthLog}
    (h : ∀ l ∈ ls, WellFormed l) :
    txValidate (txFromEth up hash ls) = true ↔ NonZero hash ∧
      ∀ l ∈ ls, l.txHash = hash ∧ NonZero l.blockHash ∧ l.blockNumber ≠ 0 := by
  have he : isEmptyHash (hashText hash) = true ↔ ¬ NonZero hash := by
    unfold isEmptyHash
    rw [hash_round_trip hh, beq_iff_eq, zero_iff hh.1]
  unfold txValidate txFromEth
  dsimp only
  by_cases hn : NonZero hash
  · rw [if_neg (fun x => he.1 x hn), List.all_eq_true]
    constructor
    · intro hall
      refine ⟨hn, fun l hl => ?_⟩
      have := hall _ (List.mem_map_of_mem hl)
      rw [Bool.and_eq_true, record_valid_iff up (h l hl), beq_iff_eq] at this
      obtain ⟨⟨a, b, _⟩, e⟩ := this
      have e' : hashText l.txHash = hashText hash := e
      refine ⟨?_, a, b⟩
      rw [← hash_round_trip (h l hl).txHash, e', hash_round_trip hh]
    · rintro ⟨_, hall⟩ r hr
      obtain ⟨l, hl, e⟩ := List.mem_map.1 hr
      subst e
      obtain ⟨a, b, c⟩ := hall l hl
      rw [Bool.and_eq_true, record_valid_iff up (h l hl), beq_iff_eq]
      refine ⟨⟨b, c, by rw [a]; exact hn⟩, ?_⟩
      show hashText l.txHash = _
      rw [a]
  · rw [if_pos (he.2 hn)]
    exact ⟨fun x => (by cases x), fun x => absurd x.1 hn⟩

/-- **What passes validation** of all records: an address of 40 hexadecimal digits, hashes that are not read as zero, and
a block. -/
theorem valid_iff (l : Log) :
    validate l = true ↔ ((strip l.address).length = 40 ∧
        ∀ c ∈ strip l.address, (48 ≤ c ∧ c ≤ 57) ∨ (97 ≤ c ∧ c ≤ 102) ∨ (65 ≤ c ∧ c ≤ 70)) ∧
      NonZero (toHash l.blockHash) ∧ l.blockNumber ≠ 0 ∧ NonZero (toHash l.txHash) := by
  have hlen : ∀ b : List Nat, (fit 32 b).length = 32 := by
    intro b
    unfold fit
    split
    · rw [List.length_drop]
      omega
    · rw [List.length_append, List.length_replicate]
      omega
  have he : ∀ x, isEmptyHash x = true ↔ ¬ NonZero (toHash x) := by
    intro x
    unfold isEmptyHash
    rw [beq_iff_eq]
    exact zero_iff (hlen _)
  have hv : ∀ c, (val c).isSome = true ↔ (48 ≤ c ∧ c ≤ 57) ∨ (97 ≤ c ∧ c ≤ 102) ∨ (65 ≤ c ∧ c ≤ 70) := by
    intro c
    unfold val
    by_cases h1 : 48 ≤ c ∧ c ≤ 57
    · rw [if_pos h1]
      exact ⟨fun _ => Or.inl h1, fun _ => rfl⟩
    · rw [if_neg h1]
      by_cases h2 : 97 ≤ c ∧ c ≤ 102
      · rw [if_pos h2]
        exact ⟨fun _ => Or.inr (Or.inl h2), fun _ => rfl⟩
      · rw [if_neg h2]
        by_cases h3 : 65 ≤ c ∧ c ≤ 70
        · rw [if_pos h3]
          exact ⟨fun _ => Or.inr (Or.inr h3), fun _ => rfl⟩
        · rw [if_neg h3]
          exact ⟨fun h => (by cases h), fun h => (by rcases h with h | h | h <;> contradiction)⟩
  have ha : isHexAddress l.address = true ↔ ((strip l.address).length = 40 ∧
      ∀ c ∈ strip l.address, (48 ≤ c ∧ c ≤ 57) ∨ (97 ≤ c ∧ c ≤ 102) ∨ (65 ≤ c ∧ c ≤ 70)) := by
    unfold isHexAddress
    rw [Bool.and_eq_true, beq_iff_eq, List.all_eq_true]
    exact and_congr Iff.rfl (forall_congr' fun c => forall_congr' fun _ => hv c)
  rw [← ha]
  have hb := he l.blockHash
  have ht := he l.txHash
  unfold validate
  by_cases h1 : NonZero (toHash l.blockHash) <;> by_cases h3 : NonZero (toHash l.txHash) <;>
    cases isHexAddress l.address <;> cases hx : isEmptyHash l.blockHash <;> cases hy : isEmptyHash l.txHash <;>
    by_cases h2 : l.blockNumber = 0 <;> simp_all

/-- Texts may begin with 0X, and an odd number of digits is read with a 0 before them. -/
theorem other_spellings (s : List Nat) :
    toHash (48 :: 88 :: s) = toHash (48 :: 120 :: s) ∧
      (s.length % 2 = 1 → toHash (48 :: 120 :: s) = toHash (48 :: 120 :: 48 :: s)) := by
  refine ⟨rfl, ?_⟩
  intro h
  unfold toHash fromHex
  have h1 : strip (48 :: 120 :: s) = s := rfl
  have h2 : strip (48 :: 120 :: 48 :: s) = 48 :: s := rfl
  rw [h1, h2, if_pos h, if_neg (by rw [List.length_cons]; omega)]

/-- **Topics are not looked at**: with any texts as topics a record passes as before. -/
theorem topics_unchecked (l : Log) (ts : List (List Nat)) : validate { l with topics := ts } = validate l := rfl

/-- A text that does not begin with hexadecimal digits is read as zero, one with an error further on as what is before
it: nothing is refused. -/
theorem unreadable_is_cut {b rest : List Nat} (hb : ∀ x ∈ b, x < 256) {c d : Nat} (hc : val c = none)
    (he : rest.length % 2 = 0) : toHash (hashText b ++ c :: d :: rest) = fit 32 b := by
  have key : ∀ (b cs : List Nat), cs.map val = (nibbles b).map some → decode (cs ++ c :: d :: rest) = b := by
    intro b
    induction b with
    | nil =>
      intro cs h
      have : cs = [] := List.map_eq_nil_iff.1 h
      subst this
      rw [List.nil_append]
      unfold decode
      rw [hc]
    | cons x b ih =>
      intro cs h
      have e : nibbles (x :: b) = x / 16 :: x % 16 :: nibbles b := rfl
      rw [e] at h
      match cs, h with
      | [], h => cases h
      | [_], h =>
        injection h with _ h
        cases h
      | c1 :: c2 :: cs, h =>
        simp only [List.map_cons] at h
        injection h with h1 h
        injection h with h2 h
        rw [List.cons_append, List.cons_append]
        unfold decode
        rw [h1, h2]
        dsimp only
        rw [ih cs h]
        congr 1
        omega
  unfold toHash fromHex
  have hs : strip (hashText b ++ c :: d :: rest) = (nibbles b).map digit ++ c :: d :: rest := rfl
  have hl : ((nibbles b).map digit ++ c :: d :: rest).length % 2 = 0 := by
    rw [List.length_append, List.length_map, nibbles_length, List.length_cons, List.length_cons]
    omega
  rw [hs, if_neg (by omega), key b _ (digits_val (nibbles_lt hb))]

/-- **Valid records do not stand for one log each**: two that pass give the same log. -/
theorem valid_records_collide :
    ∃ r r' : Log, validate r = true ∧ validate r' = true ∧ r ≠ r' ∧ toEth r = toEth r' := by
  refine ⟨{ address := hashText (List.replicate 20 1), topics := [[104, 101, 108, 108, 111]], data := [], blockNumber := 1,
            txHash := hashText [1], txIndex := 0, blockHash := hashText [2], index := 0, removed := false },
          { address := hashText (List.replicate 20 1), topics := [[]], data := [], blockNumber := 1,
            txHash := hashText [1], txIndex := 0, blockHash := hashText [2], index := 0, removed := false }, ?_, ?_, ?_, ?_⟩
  all_goals decide +kernel

/-- **The spelling of a hash matters**: a transaction's logs are refused if they name it in large letters. -/
theorem spelling_matters :
    ∃ (t : TxLogs) (l : Log), t.logs = [l] ∧ validate l = true ∧ isEmptyHash t.hash = false ∧
      toHash l.txHash = toHash t.hash ∧ txValidate t = false := by
  let l : Log :=
    { address := hashText (List.replicate 20 1), topics := [], data := [], blockNumber := 1, txHash := [48, 120, 65],
      txIndex := 0, blockHash := hashText [2], index := 0, removed := false }
  refine ⟨{ hash := [48, 120, 97], logs := [l] }, l, rfl, ?_, ?_, ?_, ?_⟩
  all_goals decide +kernel

/-! ## The hypotheses are met -/

def sample : EthLog :=
  { address := List.replicate 20 171, topics := [List.replicate 32 9, List.replicate 32 0], data := [1, 2], blockNumber := 7,
    txHash := List.replicate 32 205, txIndex := 3, blockHash := List.replicate 32 1, index := 4, removed := false }

theorem sample_wellFormed : WellFormed sample := by
  refine ⟨⟨by decide, by decide⟩, ?_, ⟨by decide, by decide⟩, ⟨by decide, by decide⟩⟩
  intro t ht
  have : t = List.replicate 32 9 ∨ t = List.replicate 32 0 := by
    simpa [sample] using ht
  cases this with
  | inl h => subst h; exact ⟨by decide, by decide⟩
  | inr h => subst h; exact ⟨by decide, by decide⟩

example : toEth (fromEth (fun _ i => i % 2 == 0) sample) = sample := log_round_trip _ sample_wellFormed

example : txValidate (txFromEth (fun _ _ => true) (List.replicate 32 205) [sample]) = true :=
  (transaction_valid_iff _ ⟨by decide, by decide⟩ (fun l hl => by
    rw [List.mem_singleton] at hl; subst hl; exact sample_wellFormed)).2
    ⟨⟨205, by decide, by decide⟩, fun l hl => by
      rw [List.mem_singleton] at hl
      subst hl
      exact ⟨rfl, ⟨1, by decide, by decide⟩, by decide⟩⟩

/-- 0xff, then `zz`. -/
example : toHash (hashText [255] ++ [122, 122]) = fit 32 [255] := unreadable_is_cut (by decide) (by decide) rfl

/-- The text of `sample`'s transaction is what one writes: 0xcdcd… -/
example : (hashText (List.replicate 32 205)).take 6 = [48, 120, 99, 100, 99, 100] := by decide +kernel

end LogRecords
