import Verif.VersionDB.ChangeSet
/-!
# Change set files: lemmas
-/
namespace VersionDB
open Bytes Varint

theorem bitLen_div {n : Nat} (h : 128 ≤ n) : bitLen n = bitLen (n / 128) + 7 := by
  have step : ∀ m, 2 ≤ m → m.log2 = (m / 2).log2 + 1 := fun m hm => by
    rw [Nat.log2_def, if_pos hm]
  have h1 : n.log2 = (n / 128).log2 + 7 := by
    rw [step n (by omega), step (n / 2) (by omega), step (n / 2 / 2) (by omega), step (n / 2 / 2 / 2) (by omega),
      step (n / 2 / 2 / 2 / 2) (by omega), step (n / 2 / 2 / 2 / 2 / 2) (by omega), step (n / 2 / 2 / 2 / 2 / 2 / 2) (by omega)]
    rw [show n / 2 / 2 / 2 / 2 / 2 / 2 / 2 = n / 128 by omega]
  unfold bitLen
  rw [if_neg (by omega), if_neg (by omega), h1]

theorem bitLen_small {n : Nat} (h : n < 128) : bitLen n ≤ 7 := by
  unfold bitLen
  split
  · omega
  · rename_i h0
    have := (Nat.log2_lt h0 (k := 7)).2 (by omega)
    omega

theorem uvarintSize_eq (n : Nat) : uvarintSize n = (putUvarint n).length := by
  induction n using Nat.strongRecOn with
  | ind n ih =>
    unfold putUvarint
    split
    · rename_i h
      have := bitLen_small h
      unfold uvarintSize
      dsimp only
      rw [List.length_singleton]
      split <;> omega
    · rename_i h
      have h1 := ih (n / 128) (by omega)
      rw [List.length_cons, ← h1]
      unfold uvarintSize
      dsimp only
      rw [bitLen_div (by omega)]
      have : bitLen (n / 128) ≠ 0 := by
        unfold bitLen
        rw [if_neg (by omega)]
        omega
      split <;> split <;> omega

theorem encodedSize_eq (p : Pair) : encodedSize p = (encodePair p).length := by
  unfold encodedSize encodePair
  dsimp only
  rw [uvarintSize_eq, uvarintSize_eq]
  split
  · simp only [List.length_cons, List.length_append]; omega
  · simp only [List.length_cons, List.length_append]; omega

theorem readFull_append (a rest : List UInt8) : readFull a.length (a ++ rest) = .ok (a, rest) := by
  unfold readFull
  rw [if_pos (by rw [List.length_append]; omega), List.take_left, List.drop_left]

theorem readUvarint_put (x i : Nat) (hi : i ≤ 9) (hx : x < 2 ^ (64 - 7 * i)) (rest : List UInt8) :
    readUvarint i (putUvarint x ++ rest) = .ok (x, rest) := by
  induction x using Nat.strongRecOn generalizing i with
  | ind x ih =>
    have hi9 : i = 9 → x ≤ 1 := by
      rintro rfl
      have : x < 2 ^ 1 := hx
      omega
    unfold putUvarint
    split
    · rename_i h
      simp only [List.cons_append, List.nil_append, readUvarint, UInt8.toNat_ofNat']
      rw [Nat.mod_eq_of_lt (by omega), if_neg (by omega), if_pos h, if_neg (by omega)]
    · rename_i h
      have h1 : (x % 128 + 128) % 256 = x % 128 + 128 := by omega
      have hi8 : i ≤ 8 := by
        by_cases h9 : i = 9
        · have := hi9 h9; omega
        · omega
      have hd : x / 128 < 2 ^ (64 - 7 * (i + 1)) := by
        rw [Nat.div_lt_iff_lt_mul (by omega)]
        have : 2 ^ (64 - 7 * i) = 2 ^ (64 - 7 * (i + 1)) * 128 := by
          rw [show (128 : Nat) = 2 ^ 7 by rfl, ← Nat.pow_add]
          congr 1; omega
        omega
      have h2 := ih (x / 128) (by omega) (i + 1) (by omega) hd
      simp only [List.cons_append, readUvarint, UInt8.toNat_ofNat', h1, h2, Nat.reducePow]
      rw [if_neg (by omega), if_neg (by omega), show x % 128 + 128 - 128 + 128 * (x / 128) = x by omega]

/-- A pair that can be written and read back: a deletion carries no value, and lengths are `uint64`s. -/
def Pair.Ok (p : Pair) : Prop := (p.delete = true → p.value = []) ∧ p.key.length < 2 ^ 64 ∧ p.value.length < 2 ^ 64

theorem readPair_encode {p : Pair} (h : p.Ok) (rest : List UInt8) : readPair (encodePair p ++ rest) = .ok (p, rest) := by
  obtain ⟨h1, h2, h3⟩ := h
  unfold readPair encodePair
  cases hd : p.delete with
  | true =>
    rw [if_pos rfl, List.cons_append, List.append_assoc]
    dsimp only [readByte]
    rw [readUvarint_put _ _ (by omega) h2]
    dsimp only
    rw [readFull_append]
    dsimp only
    rw [if_pos rfl, ← hd, ← h1 hd]
  | false =>
    rw [if_neg (by decide), List.cons_append, List.append_assoc, List.append_assoc, List.append_assoc]
    dsimp only [readByte]
    rw [readUvarint_put _ _ (by omega) h2]
    dsimp only
    rw [readFull_append]
    dsimp only
    rw [if_neg (by decide), readUvarint_put _ _ (by omega) h3]
    dsimp only
    rw [readFull_append]
    dsimp only
    rw [← hd]

theorem readPairs_encode {ps : List Pair} (h : ∀ p ∈ ps, p.Ok) (fuel off : Nat) (hf : ps.length < fuel) (rest : List UInt8) :
    readPairs fuel off (off + (ps.map encodePair).flatten.length) ((ps.map encodePair).flatten ++ rest) = .ok (ps, rest) := by
  induction ps generalizing fuel off with
  | nil =>
    cases fuel with
    | zero => cases hf
    | succ f =>
      unfold readPairs
      rw [List.map_nil, List.flatten_nil, List.length_nil, Nat.add_zero, if_neg (Nat.lt_irrefl _), if_pos rfl]
      rfl
  | cons p ps ih =>
    cases fuel with
    | zero => cases hf
    | succ f =>
      have hl := encodedSize_eq p
      have hpos : 0 < encodedSize p := by
        unfold encodedSize
        dsimp only
        split <;> omega
      unfold readPairs
      rw [List.map_cons, List.flatten_cons, List.length_append, if_pos (by omega), List.append_assoc,
        readPair_encode (h p List.mem_cons_self)]
      dsimp only
      rw [← hl, ← Nat.add_assoc, ih (fun q hq => h q (List.mem_cons_of_mem _ hq)) f _ (Nat.lt_of_succ_lt_succ hf)]

/-! ### Reading does not depend on what follows -/

theorem readFull_ext {n : Nat} {bs a rest : List UInt8} (h : readFull n bs = .ok (a, rest)) (x : List UInt8) :
    readFull n (bs ++ x) = .ok (a, rest ++ x) := by
  unfold readFull at h ⊢
  split at h
  · rename_i hl
    cases h
    rw [if_pos (by rw [List.length_append]; omega), List.take_append_of_le_length hl, List.drop_append_of_le_length hl]
  · split at h <;> cases h

theorem readUvarint_ext {i n : Nat} {bs rest : List UInt8} (h : readUvarint i bs = .ok (n, rest)) (x : List UInt8) :
    readUvarint i (bs ++ x) = .ok (n, rest ++ x) := by
  induction bs generalizing i n rest with
  | nil =>
    unfold readUvarint at h
    split at h <;> cases h
  | cons b bs ih =>
    rw [List.cons_append]
    unfold readUvarint at h ⊢
    split at h
    · cases h
    rename_i h1
    rw [if_neg h1]
    split at h
    · rename_i h2
      rw [if_pos h2]
      split at h
      · cases h
      · rename_i h3
        cases h
        rw [if_neg h3]
    · rename_i h2
      rw [if_neg h2]
      cases hr : readUvarint (i + 1) bs with
      | error e => rw [hr] at h; cases h
      | ok v =>
        obtain ⟨v, r⟩ := v
        rw [hr] at h
        cases h
        rw [ih hr]

theorem readPair_ext {p : Pair} {bs rest : List UInt8} (h : readPair bs = .ok (p, rest)) (x : List UInt8) :
    readPair (bs ++ x) = .ok (p, rest ++ x) := by
  unfold readPair at h ⊢
  cases bs with
  | nil => cases h
  | cons b bs =>
    rw [List.cons_append]
    dsimp only [readByte] at h ⊢
    cases h1 : readUvarint 0 bs with
    | error e => rw [h1] at h; cases h
    | ok r1 =>
      obtain ⟨n, bs1⟩ := r1
      rw [h1] at h
      rw [readUvarint_ext h1]
      dsimp only at h ⊢
      cases h2 : readFull n bs1 with
      | error e => rw [h2] at h; cases h
      | ok r2 =>
        obtain ⟨k, bs2⟩ := r2
        rw [h2] at h
        rw [readFull_ext h2]
        dsimp only at h ⊢
        split at h
        · rename_i hb
          cases h
          rw [if_pos hb]
        · rename_i hb
          rw [if_neg hb]
          cases h3 : readUvarint 0 bs2 with
          | error e => rw [h3] at h; cases h
          | ok r3 =>
            obtain ⟨m, bs3⟩ := r3
            rw [h3] at h
            rw [readUvarint_ext h3]
            dsimp only at h ⊢
            cases h4 : readFull m bs3 with
            | error e => rw [h4] at h; cases h
            | ok r4 =>
              obtain ⟨v, bs4⟩ := r4
              rw [h4] at h
              rw [readFull_ext h4]
              cases h
              rfl

theorem readPairs_ext {f f' o s : Nat} {ps : List Pair} {bs rest : List UInt8} (h : readPairs f o s bs = .ok (ps, rest)) (hf : f ≤ f')
    (x : List UInt8) : readPairs f' o s (bs ++ x) = .ok (ps, rest ++ x) := by
  induction f generalizing f' o bs ps rest with
  | zero => cases h
  | succ f ih =>
    cases f' with
    | zero => cases hf
    | succ f' =>
      unfold readPairs at h ⊢
      split at h
      · rename_i h1
        rw [if_pos h1]
        cases hp : readPair bs with
        | error e => rw [hp] at h; cases h
        | ok r =>
          obtain ⟨p, bs1⟩ := r
          rw [hp] at h
          rw [readPair_ext hp]
          dsimp only at h ⊢
          cases hq : readPairs f (o + encodedSize p) s bs1 with
          | error e => rw [hq] at h; cases h
          | ok r =>
            obtain ⟨qs, bs2⟩ := r
            rw [hq] at h
            rw [ih hq (Nat.le_of_succ_le_succ hf)]
            cases h
            rfl
      · rename_i h1
        rw [if_neg h1]
        split at h
        · rename_i h2
          cases h
          rw [if_pos h2]
        · cases h

theorem readChangeSet_ext {r : Nat × Nat × List Pair} {bs rest : List UInt8} (h : readChangeSet bs = .ok (r, rest)) (x : List UInt8) :
    readChangeSet (bs ++ x) = .ok (r, rest ++ x) := by
  unfold readChangeSet at h ⊢
  cases h1 : readFull 16 bs with
  | error e => rw [h1] at h; cases h
  | ok r1 =>
    obtain ⟨hd, bs1⟩ := r1
    rw [h1] at h
    rw [readFull_ext h1]
    dsimp only at h ⊢
    split at h
    · rename_i h2
      cases h
      rw [if_pos h2]
    · rename_i h2
      rw [if_neg h2]
      cases h3 : readPairs (bs1.length + 1) 0 (unle (hd.drop 8)) bs1 with
      | error e => rw [h3] at h; cases h
      | ok r3 =>
        obtain ⟨ps, bs2⟩ := r3
        rw [h3] at h
        rw [readPairs_ext h3 (by rw [List.length_append]; omega)]
        cases h
        rfl

theorem skipChangeSet_ext {r : Nat × Nat} {bs rest : List UInt8} (h : skipChangeSet bs = .ok (r, rest)) (x : List UInt8) :
    skipChangeSet (bs ++ x) = .ok (r, rest ++ x) := by
  unfold skipChangeSet at h ⊢
  cases h1 : readFull 16 bs with
  | error e => rw [h1] at h; cases h
  | ok r1 =>
    obtain ⟨hd, bs1⟩ := r1
    rw [h1] at h
    rw [readFull_ext h1]
    dsimp only at h ⊢
    split at h
    · rename_i h2
      cases h
      rw [if_pos (by rw [List.length_append]; omega), List.drop_append_of_le_length h2]
    · cases h

/-! ### Writing and reading back -/

/-- A change set that can be written and read back. -/
def CsOk (c : Nat × List Pair) : Prop :=
  c.1 < 2 ^ 64 ∧ (∀ p ∈ c.2, p.Ok) ∧ (c.2.map encodedSize).sum < 2 ^ 63

theorem items_sum (ps : List Pair) : (ps.map encodePair).flatten.length = (ps.map encodedSize).sum := by
  induction ps with
  | nil => rfl
  | cons p ps ih => rw [List.map_cons, List.flatten_cons, List.length_append, ih, ← encodedSize_eq]; rfl

theorem header_read (v n : Nat) (rest : List UInt8) : readFull 16 (le 8 v ++ le 8 n ++ rest) = .ok (le 8 v ++ le 8 n, rest) := by
  have := readFull_append (le 8 v ++ le 8 n) rest
  rwa [List.length_append, le_length, le_length] at this

theorem header_version {v n : Nat} (h : v < 2 ^ 64) : unle ((le 8 v ++ le 8 n).take 8) = v := by
  rw [List.take_append_of_le_length (by rw [le_length]; exact Nat.le_refl _)]
  have : (le 8 v).take 8 = le 8 v := List.take_of_length_le (by rw [le_length]; exact Nat.le_refl _)
  rw [this, unle_le _ _ (by simpa using h)]

theorem header_size {v n : Nat} (h : n < 2 ^ 64) : unle ((le 8 v ++ le 8 n).drop 8) = n := by
  have := List.drop_left (l₁ := le 8 v) (l₂ := le 8 n)
  rw [le_length] at this
  rw [this, unle_le _ _ (by simpa using h)]

theorem items_pos {ps : List Pair} (h : (ps.map encodePair).flatten.length = 0) : ps = [] := by
  cases ps with
  | nil => rfl
  | cons p ps =>
    rw [List.map_cons, List.flatten_cons, List.length_append, ← encodedSize_eq] at h
    unfold encodedSize at h
    dsimp only at h
    split at h <;> omega

theorem items_length (ps : List Pair) : ps.length ≤ (ps.map encodePair).flatten.length := by
  induction ps with
  | nil => exact Nat.le_refl _
  | cons p ps ih =>
    rw [List.map_cons, List.flatten_cons, List.length_append, List.length_cons, ← encodedSize_eq]
    have : 0 < encodedSize p := by
      unfold encodedSize
      dsimp only
      split <;> omega
    omega

theorem read_write_aux {c : Nat × List Pair} (h : CsOk c) (rest : List UInt8) :
    readChangeSet (writeChangeSet c.1 c.2 ++ rest) = .ok ((c.1, (writeChangeSet c.1 c.2).length, c.2), rest) := by
  obtain ⟨h1, h2, h3⟩ := h
  rw [← items_sum] at h3
  have h4 : (c.2.map encodePair).flatten.length < 2 ^ 64 := Nat.lt_trans h3 (by decide)
  have hlen : (writeChangeSet c.1 c.2).length = (c.2.map encodePair).flatten.length + 16 := by
    unfold writeChangeSet
    dsimp only
    rw [List.length_append, List.length_append, le_length, le_length]
    omega
  rw [hlen]
  unfold readChangeSet writeChangeSet
  dsimp only
  rw [List.append_assoc, header_read]
  dsimp only
  rw [header_version h1, header_size h4]
  split
  · rename_i h0
    rw [items_pos h0]
    rfl
  · have hr := readPairs_encode h2 (((c.2.map encodePair).flatten ++ rest).length + 1) 0 (by
      have := items_length c.2
      rw [List.length_append]
      omega) rest
    rw [Nat.zero_add] at hr
    rw [hr]

theorem skip_write_aux {c : Nat × List Pair} (h : CsOk c) (rest : List UInt8) :
    skipChangeSet (writeChangeSet c.1 c.2 ++ rest) = .ok ((c.1, (writeChangeSet c.1 c.2).length), rest) := by
  obtain ⟨h1, h2, h3⟩ := h
  rw [← items_sum] at h3
  have h4 : (c.2.map encodePair).flatten.length < 2 ^ 64 := Nat.lt_trans h3 (by decide)
  have hlen : (writeChangeSet c.1 c.2).length = (c.2.map encodePair).flatten.length + 16 := by
    unfold writeChangeSet
    dsimp only
    rw [List.length_append, List.length_append, le_length, le_length]
    omega
  rw [hlen]
  unfold skipChangeSet writeChangeSet
  dsimp only
  rw [List.append_assoc, header_read]
  dsimp only
  rw [header_version h1, header_size h4, if_pos (by rw [List.length_append]; omega), List.drop_left]

theorem write_length (v : Nat) (ps : List Pair) : 16 ≤ (writeChangeSet v ps).length := by
  unfold writeChangeSet
  dsimp only
  rw [List.length_append, List.length_append, le_length, le_length]
  omega

/-- An interrupted write cannot be read. -/
theorem read_part {c : Nat × List Pair} (h : CsOk c) {n : Nat} (hn : n < (writeChangeSet c.1 c.2).length) :
    ∃ e, readChangeSet ((writeChangeSet c.1 c.2).take n) = .error e := by
  cases hr : readChangeSet ((writeChangeSet c.1 c.2).take n) with
  | error e => exact ⟨e, rfl⟩
  | ok r =>
    obtain ⟨r, rest⟩ := r
    have h1 := readChangeSet_ext hr ((writeChangeSet c.1 c.2).drop n)
    rw [List.take_append_drop] at h1
    have h2 := read_write_aux h []
    rw [List.append_nil, h1] at h2
    have h3 : rest ++ (writeChangeSet c.1 c.2).drop n = [] := congrArg Prod.snd (Except.ok.inj h2)
    have h4 := congrArg List.length h3
    rw [List.length_append, List.length_drop, List.length_nil] at h4
    omega

theorem skip_part {c : Nat × List Pair} (h : CsOk c) {n : Nat} (hn : n < (writeChangeSet c.1 c.2).length) :
    ∃ e, skipChangeSet ((writeChangeSet c.1 c.2).take n) = .error e := by
  cases hr : skipChangeSet ((writeChangeSet c.1 c.2).take n) with
  | error e => exact ⟨e, rfl⟩
  | ok r =>
    obtain ⟨r, rest⟩ := r
    have h1 := skipChangeSet_ext hr ((writeChangeSet c.1 c.2).drop n)
    rw [List.take_append_drop] at h1
    have h2 := skip_write_aux h []
    rw [List.append_nil, h1] at h2
    have h3 : rest ++ (writeChangeSet c.1 c.2).drop n = [] := congrArg Prod.snd (Except.ok.inj h2)
    have h4 := congrArg List.length h3
    rw [List.length_append, List.length_drop, List.length_nil] at h4
    omega

theorem file_cons (c : Nat × List Pair) (cs : List (Nat × List Pair)) : file (c :: cs) = writeChangeSet c.1 c.2 ++ file cs := rfl

theorem iterate_cut {css : List (Nat × List Pair)} (h : ∀ c ∈ css, CsOk c) (n fuel : Nat) (hn : n ≤ (file css).length) (hf : n < fuel) :
    ∃ k, k ≤ css.length ∧ (iterate fuel ((file css).take n)).seen = css.take k ∧
      (iterate fuel ((file css).take n)).offset = (file (css.take k)).length ∧ (file (css.take k)).length ≤ n ∧
      (k < css.length → n < (file (css.take (k + 1))).length) ∧
      (n = (file (css.take k)).length → (iterate fuel ((file css).take n)).error = none) := by
  induction css generalizing n fuel with
  | nil =>
    cases fuel with
    | zero => cases hf
    | succ f =>
      have : (file []).take n = [] := List.take_nil
      rw [this]
      exact ⟨0, Nat.le_refl _, rfl, rfl, Nat.zero_le _, fun h => (by cases h), fun _ => rfl⟩
  | cons c css ih =>
    cases fuel with
    | zero => cases hf
    | succ f =>
      have hc := h c List.mem_cons_self
      have hlen := write_length c.1 c.2
      rw [file_cons, List.length_append] at hn
      by_cases hw : n < (writeChangeSet c.1 c.2).length
      · obtain ⟨e, he⟩ := read_part hc hw
        have ht : (file (c :: css)).take n = (writeChangeSet c.1 c.2).take n := by
          rw [file_cons, List.take_append_of_le_length (Nat.le_of_lt hw)]
        refine ⟨0, Nat.zero_le _, ?_, ?_, Nat.zero_le _, fun _ => ?_, fun hz => ?_⟩
        · rw [ht]; unfold iterate; rw [he]; rfl
        · rw [ht]; unfold iterate; rw [he]; rfl
        · show n < (file [c]).length
          rw [file_cons, List.length_append]
          omega
        · have : n = 0 := hz
          subst this
          rfl
      · have ht : (file (c :: css)).take n = writeChangeSet c.1 c.2 ++ (file css).take (n - (writeChangeSet c.1 c.2).length) := by
          rw [file_cons, List.take_append, List.take_of_length_le (by omega)]
        obtain ⟨k, k1, k2, k3, k4, k5, k6⟩ := ih (fun d hd => h d (List.mem_cons_of_mem _ hd)) (n - (writeChangeSet c.1 c.2).length) f
          (by omega) (by omega)
        have hit : iterate (f + 1) ((file (c :: css)).take n) =
            ⟨c :: (iterate f ((file css).take (n - (writeChangeSet c.1 c.2).length))).seen,
              (writeChangeSet c.1 c.2).length + (iterate f ((file css).take (n - (writeChangeSet c.1 c.2).length))).offset,
              (iterate f ((file css).take (n - (writeChangeSet c.1 c.2).length))).error⟩ := by
          rw [ht]
          conv => lhs; unfold iterate
          rw [read_write_aux hc]
        refine ⟨k + 1, Nat.succ_le_succ k1, ?_, ?_, ?_, fun hk => ?_, fun hz => ?_⟩
        · rw [hit, k2]; rfl
        · rw [hit]
          dsimp only
          rw [k3, List.take_succ_cons, file_cons, List.length_append]
        · rw [List.take_succ_cons, file_cons, List.length_append]
          omega
        · have := k5 (Nat.lt_of_succ_lt_succ hk)
          rw [List.take_succ_cons, file_cons, List.length_append]
          omega
        · rw [hit]
          rw [List.take_succ_cons, file_cons, List.length_append] at hz
          exact k6 (by omega)

theorem iterateV_cut {css : List (Nat × List Pair)} (h : ∀ c ∈ css, CsOk c) (n fuel : Nat) (hn : n ≤ (file css).length) (hf : n < fuel) :
    ∃ k, k ≤ css.length ∧ (iterateV fuel ((file css).take n)).seen = (css.take k).map (·.1) ∧
      (iterateV fuel ((file css).take n)).offset = (file (css.take k)).length ∧ (file (css.take k)).length ≤ n ∧
      (k < css.length → n < (file (css.take (k + 1))).length) ∧
      (n = (file (css.take k)).length → (iterateV fuel ((file css).take n)).error = none) := by
  induction css generalizing n fuel with
  | nil =>
    cases fuel with
    | zero => cases hf
    | succ f =>
      have : (file []).take n = [] := List.take_nil
      rw [this]
      exact ⟨0, Nat.le_refl _, rfl, rfl, Nat.zero_le _, fun h => (by cases h), fun _ => rfl⟩
  | cons c css ih =>
    cases fuel with
    | zero => cases hf
    | succ f =>
      have hc := h c List.mem_cons_self
      have hlen := write_length c.1 c.2
      rw [file_cons, List.length_append] at hn
      by_cases hw : n < (writeChangeSet c.1 c.2).length
      · obtain ⟨e, he⟩ := skip_part hc hw
        have ht : (file (c :: css)).take n = (writeChangeSet c.1 c.2).take n := by
          rw [file_cons, List.take_append_of_le_length (Nat.le_of_lt hw)]
        refine ⟨0, Nat.zero_le _, ?_, ?_, Nat.zero_le _, fun _ => ?_, fun hz => ?_⟩
        · rw [ht]; unfold iterateV; rw [he]; rfl
        · rw [ht]; unfold iterateV; rw [he]; rfl
        · show n < (file [c]).length
          rw [file_cons, List.length_append]
          omega
        · have : n = 0 := hz
          subst this
          rfl
      · have ht : (file (c :: css)).take n = writeChangeSet c.1 c.2 ++ (file css).take (n - (writeChangeSet c.1 c.2).length) := by
          rw [file_cons, List.take_append, List.take_of_length_le (by omega)]
        obtain ⟨k, k1, k2, k3, k4, k5, k6⟩ := ih (fun d hd => h d (List.mem_cons_of_mem _ hd)) (n - (writeChangeSet c.1 c.2).length) f
          (by omega) (by omega)
        have hit : iterateV (f + 1) ((file (c :: css)).take n) =
            ⟨c.1 :: (iterateV f ((file css).take (n - (writeChangeSet c.1 c.2).length))).seen,
              (writeChangeSet c.1 c.2).length + (iterateV f ((file css).take (n - (writeChangeSet c.1 c.2).length))).offset,
              (iterateV f ((file css).take (n - (writeChangeSet c.1 c.2).length))).error⟩ := by
          rw [ht]
          conv => lhs; unfold iterateV
          rw [skip_write_aux hc]
        refine ⟨k + 1, Nat.succ_le_succ k1, ?_, ?_, ?_, fun hk => ?_, fun hz => ?_⟩
        · rw [hit, k2]; rfl
        · rw [hit]
          dsimp only
          rw [k3, List.take_succ_cons, file_cons, List.length_append]
        · rw [List.take_succ_cons, file_cons, List.length_append]
          omega
        · have := k5 (Nat.lt_of_succ_lt_succ hk)
          rw [List.take_succ_cons, file_cons, List.length_append]
          omega
        · rw [hit]
          rw [List.take_succ_cons, file_cons, List.length_append] at hz
          exact k6 (by omega)

end VersionDB
