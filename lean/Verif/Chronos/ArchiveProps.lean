import Verif.Chronos.ArchiveLemmas
/-!
# What the archive of scheduled calls tells (C106)

`log ops` are the transactions of a history in the order in which they happened, numbered from 1.
-/
namespace CronArchive
open Hyperion (Str dec)

/-! ## Looking up -/

/-- A transaction is found by its number exactly as it was recorded, by whoever asks on the same side of the switch.
(What was recorded before the switch is not found after it.) -/
theorem found_by_number {ops : List Op} (hh : HexHashes ops) (h n : Nat) (t : Tx) :
    byNumber (run ops) h n = some t ↔ t ∈ log ops ∧ t.number = n ∧ SameSide h t.block := by
  unfold byNumber
  rw [read_eq, sameSide_iff]
  constructor
  · intro e
    split at e
    · rename_i u hu
      injection e with e
      obtain ⟨t', ht, hn, hs, hv⟩ := (rd_tx hh _ _ _).1 hu
      injection hv with hv
      rw [← e, hv]
      exact ⟨ht, hn, hs⟩
    · cases e
  · rintro ⟨ht, hn, hs⟩
    rw [(rd_tx hh _ _ _).2 ⟨t, ht, hn, hs, rfl⟩]

/-- Nothing recorded up to the switch is found by number after it. -/
theorem lost_at_the_switch {ops : List Op} (hh : HexHashes ops) (hb : ∀ t ∈ log ops, t.block ≤ 34800) {h : Nat}
    (ha : 34800 < h) (n : Nat) : byNumber (run ops) h n = none := by
  cases e : byNumber (run ops) h n with
  | none => rfl
  | some t =>
    obtain ⟨ht, _, hs⟩ := (found_by_number hh h n t).1 e
    have := hb t ht
    exact absurd (hs.1 ha) (by omega)

/-- A transaction is found by its hash, as long as what is asked for is a hash.  Partial: see `any_word_is_a_hash` for
other texts. -/
theorem found_by_hash_partial {ops : List Op} (hh : HexHashes ops) (ho : OwnHashes ops) (other : Val → Nat) (h : Nat)
    (r : Str) (t : Tx) :
    byHash other (run ops) h (48 :: 120 :: r) = some t ↔
      t ∈ log ops ∧ t.hash = 48 :: 120 :: r ∧ SameSide h t.block := by
  have g : Good (.hash (48 :: 120 :: r)) := ⟨r, rfl⟩
  unfold byHash
  rw [read_eq]
  constructor
  · intro e
    split at e
    · cases e
    · rename_i v hv
      obtain ⟨u, hu, hx, hs, rfl⟩ := (rd_hash hh ho _ g _).1 hv
      obtain ⟨ht, hn, hs'⟩ := (found_by_number hh h _ t).1 e
      have : t = u := log_inj ht hu hn
      rw [this]
      exact ⟨hu, hx, (sameSide_iff _ _).2 hs⟩
  · rintro ⟨ht, hx, hs⟩
    rw [(rd_hash hh ho _ g _).2 ⟨t, ht, hx, (sameSide_iff _ _).1 hs, rfl⟩]
    exact (found_by_number hh h _ t).2 ⟨ht, rfl, hs⟩

/-- The full statement fails: other entries of the archive are read as if they belonged to hashes.  Asked for the
transaction with the hash `cron_count`, the module answers with the transaction whose number is the number of active
calls. -/
theorem any_word_is_a_hash {ops : List Op} (hh : HexHashes ops) (other : Val → Nat) {h n : Nat} (ha : 34800 < h)
    (hc : lastCount ops = some n) {t : Tx} (ht : t ∈ log ops) (hn : t.number = n) (hb : 34800 < t.block) :
    byHash other (run ops) h [99, 114, 111, 110, 95, 99, 111, 117, 110, 116] = some t := by
  unfold byHash
  have : read (run ops) h (.hash [99, 114, 111, 110, 95, 99, 111, 117, 110, 116]) = some (.num n) := by
    unfold read
    rw [if_pos ((late_iff h).2 ha)]
    have := rd_total hh
    rw [hc] at this
    exact this
  rw [this]
  exact (found_by_number hh h n t).2 ⟨ht, hn, ⟨fun _ => hb, fun _ => ha⟩⟩

/-- The hashes of a block are those of its transactions, in order. -/
theorem hashes_of_a_block {ops : List Op} (hh : HexHashes ops) {h b : Nat} (hs : SameSide h b) :
    (hashesOf (run ops) h b).getD [] = ((log ops).filter (fun t => decide (t.block = b))).map (·.hash) := by
  rw [hashesOf_eq, rd_block hh]
  rw [sameSide_iff] at hs
  simp only [hs, true_and]
  generalize (log ops).filter (fun t => decide (t.block = b)) = L
  by_cases e : L = []
  · subst e; rfl
  · rw [if_pos e]; rfl

/-- Asked about a block on the other side of the switch, the module knows nothing. -/
theorem hashes_beyond_the_switch {ops : List Op} (hh : HexHashes ops) {h b : Nat} (hs : ¬ SameSide h b) :
    hashesOf (run ops) h b = none := by
  rw [hashesOf_eq, rd_block hh, if_neg (fun c => hs ((sameSide_iff _ _).2 c.1))]

/-- The transactions of a block are shown in order, the first hundred of them. -/
theorem txs_of_a_block {ops : List Op} (hh : HexHashes ops) (ho : OwnHashes ops) (other : Val → Nat) {h b : Nat}
    (hs : SameSide h b) :
    (ofBlock other (run ops) h b).getD [] = ((log ops).filter (fun t => decide (t.block = b))).take 100 := by
  have h1 := hashes_of_a_block hh hs
  have h2 : ∀ L : List Tx, (∀ t ∈ L, t ∈ log ops ∧ t.block = b) →
      (L.map (·.hash)).filterMap (byHash other (run ops) h) = L := by
    intro L
    induction L with
    | nil => intro _; rfl
    | cons t L ih =>
      intro hL
      obtain ⟨ht, hb⟩ := hL t List.mem_cons_self
      obtain ⟨r, hr⟩ := hh t ht
      rw [List.map_cons, List.filterMap_cons, hr, (found_by_hash_partial hh ho other h r t).2 ⟨ht, hr, hb ▸ hs⟩]
      dsimp only
      rw [ih (fun u hu => hL u (List.mem_cons_of_mem _ hu))]
  have h3 := h2 ((log ops).filter (fun t => decide (t.block = b))) (fun t ht => by
    rw [List.mem_filter] at ht; exact ⟨ht.1, of_decide_eq_true ht.2⟩)
  unfold ofBlock
  cases e : hashesOf (run ops) h b with
  | none =>
    rw [e] at h1
    have : (log ops).filter (fun t => decide (t.block = b)) = [] := by
      cases hf : (log ops).filter (fun t => decide (t.block = b)) with
      | nil => rfl
      | cons => rw [hf] at h1; cases h1
    rw [this]; rfl
  | some l =>
    rw [e] at h1
    have h1 : l = _ := h1
    rw [Option.map_some, Option.getD_some, h1, h3]

/-- A call that has ended is kept, marked as ended. -/
theorem ended_calls_kept {ops : List Op} (hh : HexHashes ops) (h id : Nat) :
    archivedCron (run ops) h id = (ended ops h id).getLast?.map (fun c => ⟨c.id, true, c.body⟩) := by
  unfold archivedCron
  rw [read_eq, rd_cron hh]
  cases (ended ops h id).getLast? <;> rfl

/-! ## Pages -/

/-- What the pages of a call show, exactly: the transactions whose number, written after the identifier of the call,
gives the same text as identifier and number of some transaction. -/
theorem shown_for_a_call {ops : List Op} (hh : HexHashes ops) (c : Nat) (t : Tx) :
    (∃ off lim, t ∈ txsOf (run ops) c off lim) ↔
      t ∈ log ops ∧ 34800 < t.block ∧
        ∃ u ∈ log ops, 34800 < u.block ∧ dec u.cron ++ dec u.number = dec c ++ dec t.number := by
  constructor
  · rintro ⟨off, lim, h⟩
    obtain ⟨⟨r, v⟩, he, hf⟩ := List.mem_filterMap.1 h
    have he := List.mem_of_mem_drop (List.mem_of_mem_take he)
    obtain ⟨ht, hl, hr⟩ := (follow_iff hh).1 hf
    obtain ⟨_, u, hu, hul, hx⟩ := (mem_index hh).1 he
    exact ⟨ht, (late_iff _).1 hl, u, hu, (late_iff _).1 hul, by rw [hx, ← hr]⟩
  · rintro ⟨ht, hl, u, hu, hul, hx⟩
    have hm : (dec t.number, Val.nothing) ∈ under (run ops) ([110, 105, 100, 58] ++ dec c) :=
      (mem_index hh).2 ⟨rfl, u, hu, (late_iff _).2 hul, hx⟩
    refine ⟨0, (under (run ops) ([110, 105, 100, 58] ++ dec c)).length, ?_⟩
    unfold txsOf page
    rw [List.drop_zero, List.take_length, List.mem_filterMap]
    exact ⟨_, hm, (follow_iff hh).2 ⟨ht, (late_iff _).2 hl, rfl⟩⟩

/-- Every transaction of a call is shown for the call. -/
theorem call_complete {ops : List Op} (hh : HexHashes ops) {t : Tx} (ht : t ∈ log ops) (hb : 34800 < t.block) :
    ∃ off lim, t ∈ txsOf (run ops) t.cron off lim :=
  (shown_for_a_call hh t.cron t).2 ⟨ht, hb, t, ht, hb, rfl⟩

/-- Only transactions of the call ought to be shown.  They are not: when another call's identifier starts with the digits
of this one, its transactions can bring a third transaction, of any call, onto the pages of this one. -/
theorem foreign_transactions_shown {ops : List Op} (hh : HexHashes ops) {c : Nat} {t u : Tx} (ht : t ∈ log ops)
    (hu : u ∈ log ops) (hbt : 34800 < t.block) (hbu : 34800 < u.block)
    (hd : dec u.cron ++ dec u.number = dec c ++ dec t.number) : ∃ off lim, t ∈ txsOf (run ops) c off lim :=
  (shown_for_a_call hh c t).2 ⟨ht, hbt, u, hu, hbu, hd⟩

theorem split_dec {a b a' b' : Str} (hl : a.length = a'.length) (h : a ++ b = a' ++ b') : a = a' ∧ b = b' :=
  List.append_inj h hl

/-- Where the identifiers of all calls have equally many digits, the pages of a call show its transactions, each once.
Partial: see `foreign_transactions_shown` for other identifiers. -/
theorem call_exact_partial {ops : List Op} (hh : HexHashes ops) (c k : Nat) (hc : 10 ^ k ≤ c ∧ c < 10 ^ (k + 1))
    (hd : ∀ u ∈ log ops, 34800 < u.block → 10 ^ k ≤ u.cron ∧ u.cron < 10 ^ (k + 1)) :
    ∃ l : List Tx, l.Perm ((log ops).filter (fun t => decide (t.cron = c ∧ 34800 < t.block))) ∧
      l.Pairwise (fun a b => le (dec a.number) (dec b.number) = true) ∧
      ∀ off lim, txsOf (run ops) c off lim = (l.drop off).take lim := by
  have key : ∀ r v, (r, v) ∈ under (run ops) ([110, 105, 100, 58] ++ dec c) →
      ∃ u ∈ log ops, late u.block = true ∧ u.cron = c ∧ r = dec u.number := by
    intro r v he
    obtain ⟨_, u, hu, hl, hx⟩ := (mem_index hh).1 he
    have hdu := hd u hu ((late_iff _).1 hl)
    obtain ⟨h1, h2⟩ := split_dec (by rw [dec_length hdu.1 hdu.2, dec_length hc.1 hc.2]) hx
    exact ⟨u, hu, hl, Hyperion.dec_inj h1, h2.symm⟩
  have hf : ∀ e ∈ under (run ops) ([110, 105, 100, 58] ++ dec c), (follow (run ops) e).isSome := by
    rintro ⟨r, v⟩ he
    obtain ⟨u, hu, hl, _, hr⟩ := key r v he
    exact Option.isSome_iff_exists.2 ⟨u, (follow_iff hh).2 ⟨hu, hl, hr⟩⟩
  obtain ⟨L, hL, hp⟩ := pages_of (follow (run ops)) _ hf
  have hk := map_keys hL (fun e _ t ht => ((follow_iff hh).1 ht).2.2)
  refine ⟨L, ?_, ?_, hp⟩
  · refine (List.perm_ext_iff_of_nodup ?_ (filter_nodup _ _)).2 ?_
    · exact nodup_of_map _ (hk ▸ under_nodup (run_distinct ops) _)
    · intro t
      rw [mem_of_map hL, List.mem_filter, decide_eq_true_iff]
      constructor
      · rintro ⟨⟨r, v⟩, he, ht⟩
        obtain ⟨ht, hl, hr⟩ := (follow_iff hh).1 ht
        obtain ⟨u, hu, _, hc, hr'⟩ := key r v he
        have : t = u := log_inj ht hu (Hyperion.dec_inj (hr.symm.trans hr'))
        exact ⟨ht, this ▸ hc, (late_iff _).1 hl⟩
      · rintro ⟨ht, hc, hl⟩
        have hl := (late_iff _).2 hl
        exact ⟨(dec t.number, .nothing), (mem_index hh).2 ⟨rfl, t, ht, hl, by rw [hc]⟩,
          (follow_iff hh).2 ⟨ht, hl, rfl⟩⟩
  · have hs : ((under (run ops) ([110, 105, 100, 58] ++ dec c)).map (·.1)).Pairwise (fun a b => le a b = true) :=
      List.pairwise_map.2 (under_sorted _ _)
    rw [hk, List.pairwise_map] at hs
    exact hs

theorem sorted_eq {ops : List Op} {l : List Tx} {p : Tx → Bool} (j : Nat) (hl : l.Perm ((log ops).filter p))
    (hs : l.Pairwise (fun a b => le (dec a.number) (dec b.number) = true))
    (hn : ∀ u ∈ log ops, p u = true → 10 ^ j ≤ u.number ∧ u.number < 10 ^ (j + 1)) : l = (log ops).filter p := by
  refine List.Perm.eq_of_pairwise (le := fun a b : Tx => le (dec a.number) (dec b.number) = true) ?_ hs ?_ hl
  · intro a b ha hb h1 h2
    have ha := (List.mem_filter.1 (hl.mem_iff.1 ha)).1
    have hb := (List.mem_filter.1 hb).1
    exact log_inj ha hb (Hyperion.dec_inj (le_antisymm _ _ h1 h2))
  · have h1 : ((log ops).filter p).Pairwise (fun a b => a.number < b.number) := (log_sorted ops).filter p
    refine h1.imp_of_mem ?_
    intro a b ha hb hlt
    have ha := List.mem_filter.1 ha
    have hb := List.mem_filter.1 hb
    exact dec_le (hn a ha.1 ha.2).1 hlt (hn b hb.1 hb.2).2

/-- Where the numbers of its transactions have equally many digits, too, the pages of a call show them in the order in
which they happened.  Partial: see `tenth_before_second`. -/
theorem call_in_order_partial {ops : List Op} (hh : HexHashes ops) (c k j : Nat) (hc : 10 ^ k ≤ c ∧ c < 10 ^ (k + 1))
    (hd : ∀ u ∈ log ops, 34800 < u.block → 10 ^ k ≤ u.cron ∧ u.cron < 10 ^ (k + 1))
    (hn : ∀ u ∈ log ops, u.cron = c → 34800 < u.block → 10 ^ j ≤ u.number ∧ u.number < 10 ^ (j + 1)) (off lim : Nat) :
    txsOf (run ops) c off lim =
      (((log ops).filter (fun t => decide (t.cron = c ∧ 34800 < t.block))).drop off).take lim := by
  obtain ⟨l, hl, hs, hp⟩ := call_exact_partial hh c k hc hd
  rw [hp, sorted_eq j hl hs (fun u hu h => by
    rw [decide_eq_true_iff] at h
    exact hn u hu h.1 h.2)]

/-- The pages of receipts of a call are empty, whatever has happened: nothing is ever written where they look. -/
theorem receipts_never_shown {ops : List Op} (hh : HexHashes ops) (c off lim : Nat) : receiptsOf (run ops) c off lim = [] := by
  have : under (run ops) ([114, 58] ++ dec c) = [] := by
    cases e : under (run ops) ([114, 58] ++ dec c) with
    | nil => rfl
    | cons a l =>
      have hm : (a.1, a.2) ∈ under (run ops) ([114, 58] ++ dec c) := by rw [e]; exact List.mem_cons_self
      obtain ⟨k, g, hk⟩ := run_keys hh _ (mem_under.1 hm)
      rw [List.append_assoc] at hk
      exact (text_r g hk).elim
  unfold receiptsOf page
  rw [this]
  simp

/-- The pages of all transactions show each of those after the switch once. -/
theorem all_shown {ops : List Op} (hh : HexHashes ops) :
    ∃ l : List Tx, l.Perm ((log ops).filter (fun t => decide (34800 < t.block))) ∧
      l.Pairwise (fun a b => le (dec a.number) (dec b.number) = true) ∧
      ∀ off lim, allTxs (run ops) off lim = (l.drop off).take lim := by
  have key : ∀ r v, (r, v) ∈ under (run ops) [116, 120, 58] ↔
      ∃ t ∈ log ops, late t.block = true ∧ r = dec t.number ∧ v = .tx t := by
    intro r v
    rw [mem_under, ← KV.get_iff_mem (run_distinct ops)]
    exact get_tx hh
  have hv : ∀ e ∈ under (run ops) [116, 120, 58], ∀ t,
      (match e.2 with | .tx t => some t | _ => none) = some t ↔ e.2 = .tx t := by
    rintro ⟨r, v⟩ he t
    obtain ⟨u, _, _, _, rfl⟩ := (key r v).1 he
    simp
  have hf : ∀ e ∈ under (run ops) [116, 120, 58], ((match e.2 with | .tx t => some t | _ => none) : Option Tx).isSome := by
    rintro ⟨r, v⟩ he
    obtain ⟨u, _, _, _, rfl⟩ := (key r v).1 he
    rfl
  obtain ⟨L, hL, hp⟩ := pages_of _ _ hf
  have hk := map_keys hL (by
    rintro ⟨r, v⟩ he t ht
    have := (hv _ he t).1 ht
    obtain ⟨u, _, _, hr, hu⟩ := (key r v).1 he
    dsimp only at this
    rw [hu] at this
    injection this with this
    rw [← this]; exact hr)
  refine ⟨L, ?_, ?_, hp⟩
  · refine (List.perm_ext_iff_of_nodup ?_ (filter_nodup _ _)).2 ?_
    · exact nodup_of_map _ (hk ▸ under_nodup (run_distinct ops) _)
    · intro t
      rw [mem_of_map hL, List.mem_filter, decide_eq_true_iff]
      constructor
      · rintro ⟨⟨r, v⟩, he, ht⟩
        have := (hv _ he t).1 ht
        obtain ⟨u, hu, hl, _, e⟩ := (key r v).1 he
        dsimp only at this
        rw [e] at this
        injection this with this
        rw [← this]
        exact ⟨hu, (late_iff _).1 hl⟩
      · rintro ⟨ht, hl⟩
        exact ⟨(dec t.number, .tx t), (key _ _).2 ⟨t, ht, (late_iff _).2 hl, rfl, rfl⟩, rfl⟩
  · have hs : ((under (run ops) [116, 120, 58]).map (·.1)).Pairwise (fun a b => le a b = true) :=
      List.pairwise_map.2 (under_sorted _ _)
    rw [hk, List.pairwise_map] at hs
    exact hs

/-- In order, where the numbers have equally many digits. -/
theorem all_in_order_partial {ops : List Op} (hh : HexHashes ops) (j : Nat)
    (hn : ∀ u ∈ log ops, 34800 < u.block → 10 ^ j ≤ u.number ∧ u.number < 10 ^ (j + 1)) (off lim : Nat) :
    allTxs (run ops) off lim = (((log ops).filter (fun t => decide (34800 < t.block))).drop off).take lim := by
  obtain ⟨l, hl, hs, hp⟩ := all_shown hh
  rw [hp, sorted_eq j hl hs (fun u hu h => hn u hu (of_decide_eq_true h))]

/-! ## Counts -/

/-- The number of ended calls is right, up to `2^31`. -/
theorem ended_count {ops : List Op} (hh : HexHashes ops) (h : Nat) (hs : endings ops h < 2147483648) :
    archivedCount (run ops) h = endings ops h := by
  unfold archivedCount
  rw [counter_eq, ctr_archived hh h hs, read_small hs]

/-- The counts of refunds and executions *in the last block* are counts since the switch: all refunds and executions on
the side of the switch on which one asks. -/
theorem last_block_counts_everything {ops : List Op} (hh : HexHashes ops) (h : Nat) :
    counter (run ops) h .refunded = refunds ops h ∧ counter (run ops) h .executed = executions ops h :=
  ⟨ctr_refunded hh h, ctr_executed hh h⟩

/-- The number of active calls is the one last counted, and 0 if nobody ever counted. -/
theorem active_count {ops : List Op} (hh : HexHashes ops) : totalCount (run ops) = (lastCount ops).getD 0 := by
  unfold totalCount
  rw [rd_total hh]
  cases lastCount ops <;> rfl

/-- An execution that fails stops the program: it leaves no transaction. -/
theorem failed_execution_stops (s : State) (h c : Nat) (x : Str) (b : Nat) : execute s h c x b none = none := rfl

/-- An execution that succeeds is recorded under the next number, and its gas is reported. -/
theorem execution_recorded (ops : List Op) (h c : Nat) (x : Str) (b g : Nat)
    (hh : HexHashes (ops ++ [.executed h c x b (some g)])) :
    ∃ s, execute (run ops) h c x b (some g) = some (s, g) ∧ s = run (ops ++ [.executed h c x b (some g)]) ∧
      byNumber s h ((log ops).length + 1) = some ⟨(log ops).length + 1, h, x, c, b⟩ := by
  refine ⟨_, rfl, by rw [run_snoc]; rfl, ?_⟩
  have := (found_by_number hh h ((log ops).length + 1) ⟨(log ops).length + 1, h, x, c, b⟩).2
    ⟨by rw [log_snoc]; simp [added], rfl, Iff.rfl⟩
  rw [run_snoc] at this
  exact this

/-! ## Cases that meet the hypotheses -/

/-- A hash for each number. -/
def sampleHash (n : Nat) : Str := 48 :: 120 :: dec n

/-- A history across the switch. -/
def sample : List Op :=
  [.cancelled 34799 7 (sampleHash 1) 11, .executed 34800 7 (sampleHash 2) 12 (some 21000), .removed 34800 ⟨7, false, 5⟩ true,
   .executed 34801 8 (sampleHash 3) 13 (some 21000), .executed 34801 9 (sampleHash 4) 14 none,
   .cancelled 34801 8 (sampleHash 5) 15, .counted 3, .removed 34802 ⟨8, false, 6⟩ false,
   .executed 34900 9 (sampleHash 6) 16 (some 5)]

theorem hexHashes_of {ops : List Op} (h : (log ops).all (fun t => t.hash.take 2 == [48, 120]) = true) : HexHashes ops := by
  intro t ht
  have := List.all_eq_true.1 h t ht
  match hx : t.hash with
  | [] => rw [hx] at this; exact absurd this (by decide)
  | [a] => rw [hx] at this; simp at this
  | a :: b :: r =>
    rw [hx] at this
    simp at this
    exact ⟨r, by rw [this.1, this.2]⟩

theorem sample_hex : HexHashes sample := hexHashes_of (by decide +kernel)

theorem sample_own : OwnHashes sample := by
  show List.Nodup _
  decide +kernel

example : log sample = [⟨1, 34799, sampleHash 1, 7, 11⟩, ⟨2, 34800, sampleHash 2, 7, 12⟩, ⟨3, 34801, sampleHash 3, 8, 13⟩,
    ⟨4, 34801, sampleHash 5, 8, 15⟩, ⟨5, 34900, sampleHash 6, 9, 16⟩] := by decide +kernel

example : byNumber (run sample) 34800 2 = some ⟨2, 34800, sampleHash 2, 7, 12⟩ ∧ byNumber (run sample) 34801 2 = none ∧
    byNumber (run sample) 99999 3 = some ⟨3, 34801, sampleHash 3, 8, 13⟩ := by decide +kernel

example : byHash (fun _ => 0) (run sample) 40000 (sampleHash 5) = some ⟨4, 34801, sampleHash 5, 8, 15⟩ := by decide +kernel

example : byNumber (run (sample.take 3)) 34801 2 = none :=
  lost_at_the_switch (hexHashes_of (by decide +kernel)) (by decide +kernel) (by decide) 2

/-- Three active calls: transaction number 3 is `cron_count`. -/
example : byHash (fun _ => 0) (run sample) 40000 [99, 114, 111, 110, 95, 99, 111, 117, 110, 116]
    = some ⟨3, 34801, sampleHash 3, 8, 13⟩ :=
  any_word_is_a_hash sample_hex _ (by decide) (n := 3) (by decide +kernel) (by decide +kernel) rfl (by decide)

example : hashesOf (run sample) 40000 34801 = some [sampleHash 3, sampleHash 5] ∧ hashesOf (run sample) 40000 34800 = none :=
  by decide +kernel

example : (ofBlock (fun _ => 0) (run sample) 40000 34801).getD [] = [⟨3, 34801, sampleHash 3, 8, 13⟩,
    ⟨4, 34801, sampleHash 5, 8, 15⟩] := by
  rw [txs_of_a_block sample_hex sample_own _ (by decide)]
  decide +kernel

example : archivedCron (run sample) 40000 8 = some ⟨8, true, 6⟩ ∧ archivedCron (run sample) 40000 7 = none ∧
    archivedCron (run sample) 34800 7 = some ⟨7, true, 5⟩ := by decide +kernel

example : txsOf (run sample) 8 0 10 = [⟨3, 34801, sampleHash 3, 8, 13⟩, ⟨4, 34801, sampleHash 5, 8, 15⟩] := by
  rw [call_in_order_partial sample_hex 8 0 0 (by decide) (by decide +kernel) (by decide +kernel)]
  decide +kernel

example : allTxs (run sample) 1 10 = [⟨4, 34801, sampleHash 5, 8, 15⟩, ⟨5, 34900, sampleHash 6, 9, 16⟩] := by
  rw [all_in_order_partial sample_hex 0 (by decide +kernel)]
  decide +kernel

example : receiptsOf (run sample) 8 0 10 = [] := receipts_never_shown sample_hex 8 0 10

example : archivedCount (run sample) 40000 = 1 ∧ counter (run sample) 34800 .refunded = 1 ∧
    counter (run sample) 40000 .refunded = 0 ∧ counter (run sample) 40000 .executed = 2 ∧ totalCount (run sample) = 3 := by
  decide +kernel

/-- Eleven transactions: the first of call 11, the others of call 2. -/
def mixed : List Op :=
  .cancelled 40000 11 (sampleHash 1) 0 :: (List.range 10).map (fun i => .cancelled 40001 2 (sampleHash (i + 2)) i)

/-- Call 1 has no transaction at all, but its page shows one of call 2. -/
theorem stranger_on_the_page : txsOf (run mixed) 1 0 10 = [⟨11, 40001, sampleHash 11, 2, 9⟩] := by decide +kernel

example : ∃ off lim, (⟨11, 40001, sampleHash 11, 2, 9⟩ : Tx) ∈ txsOf (run mixed) 1 off lim :=
  foreign_transactions_shown (hexHashes_of (by decide +kernel)) (u := ⟨1, 40000, sampleHash 1, 11, 0⟩) (by decide +kernel)
    (by decide +kernel) (by decide) (by decide) (by decide +kernel)

/-- The tenth and the eleventh transaction come before the second. -/
theorem tenth_before_second : (txsOf (run mixed) 2 0 3).map (·.number) = [10, 11, 2] := by decide +kernel

end CronArchive
