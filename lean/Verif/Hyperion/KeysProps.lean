import Verif.Hyperion.KeysLemmas
/-!
# Theorems about the store keys of the bridge
-/
namespace Hyperion
open Bytes

/-! ## Specification -/

/-- The identifiers of an object are in the ranges of their Go types: 64-bit numbers, 20-byte addresses, a fee that fits
32 bytes (`FillBytes` panics otherwise).  Validator and orchestrator addresses have at least 8 bytes (they have 20 or 32),
hashes 32. -/
def Obj.Valid : Obj → Prop
  | .ethOfValidator hid val | .validatorFee hid val | .lastEvent hid val => hid < 2 ^ 64 ∧ 8 ≤ val.length
  | .orchestrator hid orc => hid < 2 ^ 64 ∧ 8 ≤ orc.length
  | .orchestratorData orc => 8 ≤ orc.length
  | .validatorOfEth hid addr => hid < 2 ^ 64 ∧ addr.length = 20
  | .valset hid n | .withdrawal hid n | .batchBlock hid n | .externalDataBlock hid n | .nonceObserved hid n
  | .skippedNonce hid n => hid < 2 ^ 64 ∧ n < 2 ^ 64
  | .valsetConfirm hid n val => hid < 2 ^ 64 ∧ n < 2 ^ 64 ∧ 8 ≤ val.length
  | .attestation hid n hash => hid < 2 ^ 64 ∧ n < 2 ^ 64 ∧ hash.length = 32
  | .params | .lastWithdrawalId | .lastUnbonding | .lastFinalized => True
  | .genesisWithdrawalId hid | .lastBatchNonce hid | .lastObservedNonce hid | .lastObservedHeight hid
  | .lastSlashedValset hid | .latestValset hid | .lastSlashedBatch hid | .lastObservedValset hid | .whitelist hid => hid < 2 ^ 64
  | .feeIndex hid token fee => hid < 2 ^ 64 ∧ token.length = 20 ∧ fee < 2 ^ 256
  | .batch hid n token | .externalData hid n token => hid < 2 ^ 64 ∧ n < 2 ^ 64 ∧ token.length = 20
  | .batchConfirm hid token n val => hid < 2 ^ 64 ∧ token.length = 20 ∧ n < 2 ^ 64 ∧ 8 ≤ val.length
  | .checkpoint hid hash => hid < 2 ^ 64 ∧ hash.length = 32
  | .blacklisted addr => addr.length = 20
  | .finalized addr n => addr.length = 20 ∧ n < 2 ^ 64

/-- What a listing should return. -/
def Listing.wants : Listing → Obj → Bool
  | .waiting hid, .feeIndex h _ _ => decide (h = hid)
  | .waitingOfToken hid token, .feeIndex h t _ => decide (h = hid ∧ t = token)
  | .batches hid, .batch h _ _ => decide (h = hid)
  | .externalData hid, .externalData h _ _ => decide (h = hid)
  | .valsetConfirms hid n, .valsetConfirm h m _ => decide (h = hid ∧ m = n)
  | .batchConfirms hid n token, .batchConfirm h t m _ => decide (h = hid ∧ t = token ∧ m = n)
  | .validatorFees hid, .validatorFee h _ => decide (h = hid)
  | .attestations hid, .attestation h _ _ => decide (h = hid)
  | .cleanValsets hid, .valset h _ => decide (h = hid)
  | .cleanBatchConfirms hid, .batchConfirm h _ _ _ => decide (h = hid)
  | .cleanLastEvents hid, .lastEvent h _ => decide (h = hid)
  | .finalizedOf addr, .finalized a _ => decide (a = addr)
  | _, _ => false

/-- The arguments of a listing are in the ranges of their Go types. -/
def Listing.Valid : Listing → Prop
  | .waiting hid | .batches hid | .externalData hid | .validatorFees hid | .attestations hid | .cleanValsets hid
  | .cleanBatchConfirms hid | .cleanLastEvents hid => hid < 2 ^ 64
  | .waitingOfToken hid token => hid < 2 ^ 64 ∧ token.length = 20
  | .valsetConfirms hid n => hid < 2 ^ 64 ∧ n < 2 ^ 64
  | .batchConfirms hid n token => hid < 2 ^ 64 ∧ n < 2 ^ 64 ∧ token.length = 20
  | .finalizedOf addr => addr.length = 20

/-! ## Distinct objects have distinct keys -/

theorem u64_len (n : Nat) : (u64 n).length = 8 := be_length 8 n

theorem u64_inj {m n : Nat} (hm : m < 2 ^ 64) (hn : n < 2 ^ 64) : u64 m = u64 n ↔ m = n :=
  ⟨fun h => be_inj (w := 8) (by simpa using hm) (by simpa using hn) h, fun h => by rw [h]⟩

theorem unbe_u64 {n : Nat} (h : n < 2 ^ 64) : unbe (u64 n) = n := unbe_be 8 n (by simpa using h)

theorem unbe_be32 {n : Nat} (h : n < 2 ^ 256) : unbe (be 32 n) = n := unbe_be 32 n (by simpa using h)

/-- Reads an object back from its key. -/
def parse : Str → Option Obj
  | [] => none
  | c :: r =>
    let h := unbe (r.take 8)
    let n := unbe ((r.drop 8).take 8)
    match c.toNat with
    | 0x01 => some (.ethOfValidator h (r.drop 8))
    | 0xfb => some (.validatorOfEth h (r.drop 8))
    | 0x02 => some (.valset h n)
    | 0x03 => some (.valsetConfirm h n (r.drop 16))
    | 0x04 => some .params
    | 0x05 => some (.attestation h n (r.drop 16))
    | 0x06 => some (.withdrawal h n)
    | 0x07 => if r.length = 12 then some .lastWithdrawalId
      else if r.length = 20 then some (.genesisWithdrawalId (unbe (r.drop 12))) else some (.lastBatchNonce (unbe (r.drop 11)))
    | 0x09 => some (.feeIndex h ((r.drop 8).take 20) (unbe (r.drop 28)))
    | 0x0a => some (.batch h n (r.drop 16))
    | 0x0b => some (.batchBlock h n)
    | 0xe1 => some (.batchConfirm h ((r.drop 8).take 20) (unbe ((r.drop 28).take 8)) (r.drop 36))
    | 0xf1 => some (.lastEvent h (r.drop 17))
    | 0xf2 => some (.lastObservedNonce h)
    | 0xe8 => some (.orchestrator h (r.drop 8))
    | 0xf9 => some (.lastObservedHeight h)
    | 0xf5 => some (.lastSlashedValset h)
    | 0xf6 => some (.latestValset h)
    | 0xf7 => some (.lastSlashedBatch h)
    | 0xf8 => some .lastUnbonding
    | 0xfa => some (.lastObservedValset h)
    | 0x1b => some (.checkpoint h (r.drop 8))
    | 0x1c => some (.blacklisted r)
    | 0x1d => some (.finalized (r.take 20) (unbe (r.drop 20)))
    | 0x1e => some .lastFinalized
    | 0x1f => some (.externalData h n (r.drop 16))
    | 0x20 => some (.externalDataBlock h n)
    | 0x21 => some (.nonceObserved (unbe ((r.drop 1).take 8)) (unbe (r.drop 9)))
    | 0x22 => some (.validatorFee h (r.drop 8))
    | 0x23 => some (.orchestratorData r)
    | 0x24 => some (.whitelist (unbe (r.drop 1)))
    | 0x25 => some (.skippedNonce (unbe ((r.drop 1).take 8)) (unbe (r.drop 9)))
    | _ => none

theorem parse_key {o : Obj} (h : o.Valid) : parse (key o) = some o := by
  cases o <;> simp only [Obj.Valid] at h <;>
    simp [parse, key, u64_len, List.drop_append, List.take_append, List.take_of_length_le, List.drop_of_length_le, unbe_u64, unbe_be32, lastTxPoolId, lastBatchId, h]

/-- Different objects never share a key. -/
theorem key_injective {a b : Obj} (ha : a.Valid) (hb : b.Valid) (h : key a = key b) : a = b := by
  have := parse_key ha
  rw [h, parse_key hb] at this
  cases this
  rfl

/-! ## Listings return exactly what they should -/

/-- What the prefix of a listing is. -/
def Listing.pfx : Listing → Str
  | .waiting hid => 0x09 :: u64 hid
  | .waitingOfToken hid token => 0x09 :: (u64 hid ++ token)
  | .batches hid => 0x0a :: u64 hid
  | .externalData hid => 0x1f :: u64 hid
  | .valsetConfirms hid nonce => 0x03 :: (u64 hid ++ u64 nonce)
  | .batchConfirms hid nonce token => 0xe1 :: (u64 hid ++ (token ++ u64 nonce))
  | .validatorFees hid => 0x22 :: u64 hid
  | .attestations hid => 0x05 :: u64 hid
  | .cleanValsets hid => 0x02 :: u64 hid
  | .cleanBatchConfirms hid => 0xe1 :: u64 hid
  | .cleanLastEvents hid => 0xf1 :: u64 hid
  | .finalizedOf addr => 0x1d :: addr

/-- `u64` as a prefix. -/
theorem u64_prefix {m n : Nat} (hm : m < 2 ^ 64) (hn : n < 2 ^ 64) (d : Str) : u64 m <+: u64 n ++ d ↔ n = m := by
  have := append_prefix_iff (a := u64 m) (b := u64 n) (c := []) (d := d) (by simp [u64_len])
  rw [List.append_nil, u64_inj hm hn] at this
  rw [this]
  exact ⟨fun h => h.1.symm, fun h => ⟨h.symm, List.nil_prefix⟩⟩

theorem u64_prefix' {m n : Nat} (hm : m < 2 ^ 64) (hn : n < 2 ^ 64) (c d : Str) :
    u64 m ++ c <+: u64 n ++ d ↔ n = m ∧ c <+: d := by
  rw [append_prefix_iff (by simp [u64_len]), u64_inj hm hn, eq_comm]

theorem str_prefix {a b : Str} (h : a.length = b.length) (d : Str) : a <+: b ++ d ↔ b = a := by
  have := append_prefix_iff (a := a) (b := b) (c := []) (d := d) h
  rw [List.append_nil] at this
  rw [this]
  exact ⟨fun h => h.1.symm, fun h => ⟨h.symm, List.nil_prefix⟩⟩

theorem str_prefix' {a b : Str} (h : a.length = b.length) (c d : Str) : a ++ c <+: b ++ d ↔ b = a ∧ c <+: d := by
  rw [append_prefix_iff h, eq_comm]

theorem u64_prefix_self {m n : Nat} (hm : m < 2 ^ 64) (hn : n < 2 ^ 64) : u64 m <+: u64 n ↔ n = m := by
  have := u64_prefix hm hn []
  rwa [List.append_nil] at this

theorem pfx_iff {l : Listing} {o : Obj} (hl : l.Valid) (ho : o.Valid) : l.pfx <+: key o ↔ l.wants o = true := by
  cases l <;> cases o <;> simp only [Obj.Valid, Listing.Valid] at ho hl <;>
    simp [Listing.pfx, key, Listing.wants, List.cons_prefix_cons, u64_prefix, u64_prefix', u64_prefix_self, str_prefix, str_prefix', ho, hl]

/-- The end of a prefix range starts with the first byte of the prefix or the next one. -/
theorem prefixRange_first {c y : UInt8} {p k : Str} (hc : c.toNat < 255) (h : inRange (prefixRange (c :: p)) (y :: k) = true) :
    y.toNat = c.toNat ∨ y.toNat = c.toNat + 1 := by
  rw [inRange_iff, prefixRange_snd _ (by simp)] at h
  obtain ⟨h1, h2⟩ := h
  rw [Bool.eq_false_iff, ne_eq, blt_cons_iff] at h1
  simp only [cf] at h2
  cases hf : (cf p).2 with
  | true =>
    have hd : decide (c.toNat = 255) = false := decide_eq_false (by omega)
    simp only [hf, ↓reduceIte, hd, Bool.false_eq_true, Option.some.injEq, forall_eq'] at h2
    rw [blt_cons_iff, u8_succ, if_neg (by omega)] at h2
    omega
  | false =>
    simp only [hf, Bool.false_eq_true, ↓reduceIte, Option.some.injEq, forall_eq'] at h2
    rw [blt_cons_iff] at h2
    omega

theorem under_first {c y : UInt8} {r : Str × Option Str} {k : Str} (h : inRange (under [c] r) (y :: k) = true) : y = c := by
  obtain ⟨k', hk, _⟩ := under_iff.1 h
  simp at hk
  exact hk.1

/-- Lengths of the keys that start with the first byte of a listing, or for the two ranges over the whole store with the
byte after it. -/
theorem length_ok {l : Listing} {o : Obj} (hl : l.Valid) (ho : o.Valid) (h : inRange (rangeOf l) (key o) = true) :
    l.pfx.length ≤ (key o).length := by
  cases l
  case attestations => exact (prefixStoreRange_iff.1 h).length_le
  case cleanValsets => exact (prefixStoreRange_iff.1 h).length_le
  case cleanBatchConfirms => exact (prefixStoreRange_iff.1 h).length_le
  case cleanLastEvents => exact (prefixStoreRange_iff.1 h).length_le
  case waiting =>
    cases o <;> simp only [Obj.Valid, Listing.Valid] at ho hl <;> simp only [rangeOf, key] at h <;>
      first
      | (simp [Listing.pfx, key, u64_len, lastTxPoolId, lastBatchId]; done)
      | (simp [Listing.pfx, key, u64_len, lastTxPoolId, lastBatchId]; omega)
      | (exfalso; have := prefixRange_first (by decide) h; revert this; decide)
  case validatorFees =>
    cases o <;> simp only [Obj.Valid, Listing.Valid] at ho hl <;> simp only [rangeOf, key] at h <;>
      first
      | (simp [Listing.pfx, key, u64_len, lastTxPoolId, lastBatchId]; done)
      | (simp [Listing.pfx, key, u64_len, lastTxPoolId, lastBatchId]; omega)
      | (exfalso; have := prefixRange_first (by decide) h; revert this; decide)
  all_goals
    cases o <;> simp only [Obj.Valid, Listing.Valid] at ho hl <;> simp only [rangeOf, key] at h <;>
      first
      | (exfalso; have := under_first h; revert this; decide)
      | (simp [Listing.pfx, key, u64_len, ho, hl]; done)
      | (simp [Listing.pfx, key, u64_len, ho, hl]; omega)

/-- Every listing function visits the key of an object exactly when the object is one it should return. -/
theorem listing_exact {l : Listing} {o : Obj} (hl : l.Valid) (ho : o.Valid) :
    inRange (rangeOf l) (key o) = l.wants o := by
  rw [Bool.eq_iff_iff, ← pfx_iff hl ho]
  have key_len : l.pfx.length ≤ (key o).length → (inRange (rangeOf l) (key o) = true ↔ l.pfx <+: key o) := by
    intro h
    have u0 : ∀ n, u64 n ≠ [] := fun n hn => by have := u64_len n; rw [hn] at this; cases this
    cases l
    case waiting => exact prefixRange_prefix (by simp) h
    case validatorFees => exact prefixRange_prefix (by simp) h
    case attestations => exact prefixStoreRange_iff
    case cleanValsets => exact prefixStoreRange_iff
    case cleanBatchConfirms => exact prefixStoreRange_iff
    case cleanLastEvents => exact prefixStoreRange_iff
    case finalizedOf addr =>
      refine under_prefixRange (q := [0x1d]) ?_ h
      rintro rfl
      simp [Listing.Valid] at hl
    case batches => exact under_prefixRange (q := [0x0a]) (u0 _) h
    case externalData => exact under_prefixRange (q := [0x1f]) (u0 _) h
    case waitingOfToken => exact under_prefixRange (q := [0x09]) (by simp [u0]) h
    case valsetConfirms => exact under_prefixRange (q := [0x03]) (by simp [u0]) h
    case batchConfirms => exact under_prefixRange (q := [0xe1]) (by simp [u0]) h
  constructor
  · intro h
    exact (key_len (length_ok hl ho h)).1 h
  · intro h
    exact (key_len h.length_le).2 h

/-- `PrefixRange` itself is only right for keys at least as long as the prefix: the range of the prefix 1, 255 contains the
key 2.  (No object of the module has such a short key: `listing_exact`.) -/
theorem prefixRange_visits_other_keys :
    inRange (prefixRange [1, 255]) [2] = true ∧ ¬ ([1, 255] : Str) <+: [2] := by decide

/-! ## Order of iteration -/

/-- The index of waiting withdrawals is ordered by chain, then token, then fee; so the reverse iterator of a token gives the
highest fee first. -/
theorem feeIndex_order {h h' f f' t t' : Nat} (hh : h < 2 ^ 64) (hh' : h' < 2 ^ 64) (hf : f < 2 ^ 256) (hf' : f' < 2 ^ 256)
    (ht : t < 2 ^ 160) (ht' : t' < 2 ^ 160) :
    blt (key (.feeIndex h (be 20 t) f)) (key (.feeIndex h' (be 20 t') f')) = true ↔
      h < h' ∨ (h = h' ∧ (t < t' ∨ (t = t' ∧ f < f'))) := by
  simp only [key]
  rw [blt_cons_iff, blt_append_of_length (by simp [u64_len]), blt_append_of_length (by simp), u64_inj hh hh']
  rw [show blt (u64 h) (u64 h') = true ↔ h < h' from blt_be (w := 8) (by simpa using hh) (by simpa using hh')]
  rw [blt_be (w := 20) (by simpa using ht) (by simpa using ht'), blt_be (w := 32) (by simpa using hf) (by simpa using hf')]
  have : be 20 t = be 20 t' ↔ t = t' :=
    ⟨fun h => be_inj (w := 20) (by simpa using ht) (by simpa using ht') h, fun h => by rw [h]⟩
  rw [this]
  simp

/-- Batches are ordered by chain, then nonce. -/
theorem batch_order {h h' n n' : Nat} {t t' : Str} (hh : h < 2 ^ 64) (hh' : h' < 2 ^ 64) (hn : n < 2 ^ 64) (hn' : n' < 2 ^ 64)
    (hlt : h < h' ∨ (h = h' ∧ n < n')) : blt (key (.batch h n t)) (key (.batch h' n' t')) = true := by
  simp only [key]
  rw [blt_cons_iff, blt_append_of_length (by simp [u64_len]), blt_append_of_length (by simp [u64_len]), u64_inj hh hh', u64_inj hn hn']
  rw [show blt (u64 h) (u64 h') = true ↔ h < h' from blt_be (w := 8) (by simpa using hh) (by simpa using hh'),
    show blt (u64 n) (u64 n') = true ↔ n < n' from blt_be (w := 8) (by simpa using hn) (by simpa using hn')]
  right
  refine ⟨rfl, ?_⟩
  rcases hlt with h | ⟨h1, h2⟩
  · exact Or.inl h
  · exact Or.inr ⟨h1, Or.inl h2⟩

/-! ## Ranges that are not what they should be -/

/-- The search for batches to be slashed passes block heights as bounds of keys that start with the chain id: it selects by
chain id, whatever the block of the batch is.  Selecting the batches of chain `hid` with `last ≤ block < max` was meant. -/
theorem slashed_batches_selected_by_chain {hid block last max : Nat} (h1 : hid < 2 ^ 64) (h3 : last < 2 ^ 64) (h4 : max < 2 ^ 64) :
    inRange (slashedBatchRange last max) (key (.batchBlock hid block)) = decide (last ≤ hid ∧ hid < max) := by
  rw [Bool.eq_iff_iff, decide_eq_true_iff, slashedBatchRange, under_iff]
  have e : ∀ n, n < 2 ^ 64 → (blt (u64 hid ++ u64 block) (u64 n) = true ↔ hid < n) := by
    intro n hn
    have := blt_append_of_length (a := u64 hid) (b := u64 n) (x := u64 block) (y := []) (by simp [u64_len])
    rw [List.append_nil] at this
    rw [this, show blt (u64 hid) (u64 n) = true ↔ hid < n from blt_be (w := 8) (by simpa using h1) (by simpa using hn)]
    simp [blt_nil]
  have e2 : inRange (u64 last, some (u64 max)) (u64 hid ++ u64 block) = true ↔ last ≤ hid ∧ hid < max := by
    rw [inRange_iff, Bool.eq_false_iff, ne_eq, e last h3]
    simp only [Option.some.injEq, forall_eq', e max h4]
    omega
  rw [← e2]
  constructor
  · rintro ⟨k', hk, h⟩
    simp only [key, List.cons_append, List.nil_append, List.cons.injEq, true_and] at hk
    rw [hk]
    exact h
  · intro h
    exact ⟨_, rfl, h⟩

/-- The search for validator sets to be slashed does select by chain and nonce. -/
theorem slashed_valsets_selected {hid h nonce last max : Nat} (h1 : hid < 2 ^ 64) (h2 : h < 2 ^ 64) (h3 : nonce < 2 ^ 64)
    (h4 : last < 2 ^ 64) (h5 : max < 2 ^ 64) :
    inRange (slashedValsetRange h last max) (key (.valset hid nonce)) = decide (hid = h ∧ last ≤ nonce ∧ nonce < max) := by
  rw [Bool.eq_iff_iff, decide_eq_true_iff, slashedValsetRange, under_iff]
  have e : ∀ n, n < 2 ^ 64 → (blt (u64 nonce) (u64 n) = true ↔ nonce < n) := fun n hn =>
    blt_be (w := 8) (by simpa using h3) (by simpa using hn)
  have e2 : inRange (u64 last, some (u64 max)) (u64 nonce) = true ↔ last ≤ nonce ∧ nonce < max := by
    rw [inRange_iff, Bool.eq_false_iff, ne_eq, e last h4]
    simp only [Option.some.injEq, forall_eq', e max h5]
    omega
  rw [← e2]
  constructor
  · rintro ⟨k', hk, h⟩
    simp only [key, List.cons_append, List.cons.injEq, true_and] at hk
    obtain ⟨hk1, hk2⟩ := List.append_inj hk (by simp [u64_len])
    rw [hk2]
    exact ⟨(u64_inj h1 h2).1 hk1, h⟩
  · rintro ⟨rfl, h⟩
    exact ⟨_, rfl, h⟩

/-- Removing the confirmations of a chain uses the chain id without the kind byte as prefix: for every realistic chain id
nothing at all is removed, in particular no confirmation. -/
theorem clean_valset_confirms_removes_nothing {hid : Nat} {o : Obj} (h : hid < 2 ^ 56) :
    inRange (cleanValsetConfirmsRange hid) (key o) = false := by
  rw [Bool.eq_false_iff, ne_eq, cleanValsetConfirmsRange, prefixStoreRange_iff]
  have e : u64 hid = 0 :: be 7 hid := by
    have : hid / 72057594037927936 = 0 := by omega
    simp [u64, be, le, Nat.div_div_eq_div_mul, this]
  rw [e]
  cases o <;> simp [key, List.cons_prefix_cons]

/-- Removing the observed nonces of one chain removes those of every chain. -/
theorem clean_nonces_of_all_chains (hid h n : Nat) : inRange (cleanNonceObservedRange hid) (key (.nonceObserved h n)) = true := by
  rw [cleanNonceObservedRange, prefixStoreRange_iff]
  simp [key, List.cons_prefix_cons]

/-! ## Examples -/

example : (Obj.feeIndex 1 (be 20 77) 1000).Valid ∧ (Obj.batch 1 2 (be 20 77)).Valid ∧ (Listing.waitingOfToken 1 (be 20 77)).Valid := by
  simp [Obj.Valid, Listing.Valid]
example : (rangeOf (.waiting 255)) = (0x09 :: [0, 0, 0, 0, 0, 0, 0, 255], some (0x09 :: [0, 0, 0, 0, 0, 0, 1, 0])) := by decide
example : inRange (rangeOf (.waiting 255)) (key (.feeIndex 255 (be 20 77) 1000)) = true ∧
    inRange (rangeOf (.waiting 255)) (key (.feeIndex 256 (be 20 0) 0)) = false := by decide +kernel

end Hyperion
