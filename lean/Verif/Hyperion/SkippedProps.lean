import Verif.Hyperion.KeysProps
/-!
# Theorems about the skipped event nonces

The full property: the nonces stored for a chain and not removed since are exactly those listed for the chain, and cleaning
a chain removes them.  The entries are written under a doubled prefix and read and cleaned under a single one; so the
query for one nonce works (`skipped_query_partial`), the list of a chain is always empty (`skipped_never_listed`), cleaning
a chain does nothing (`skipped_clean_does_nothing`) and the list over all chains names no existing chain
(`skipped_list_of_all_chains`).
-/
namespace Hyperion
open Bytes

/-! ## Specification -/

/-- What should be recorded for a nonce of a chain after a history. -/
def recorded (hid nonce : Nat) : List SkipOp → Option Skipped
  | [] => none
  | op :: earlier =>
    match op with
    | .store h n i => if h = hid ∧ n = nonce then some i else recorded hid nonce earlier
    | .remove h n => if h = hid ∧ n = nonce then none else recorded hid nonce earlier
    | .clean h => if h = hid then none else recorded hid nonce earlier
    | .cleanAll => none

/-- Arguments are 64-bit numbers. -/
def SkipOp.Valid : SkipOp → Prop
  | .store h n _ | .remove h n => h < 2 ^ 64 ∧ n < 2 ^ 64
  | .clean h => h < 2 ^ 64
  | .cleanAll => True

/-- Every key of a history is that of a skipped nonce. -/
def KeysOk (m : SkipStore) : Prop := ∀ e ∈ m, ∃ h n, h < 2 ^ 64 ∧ n < 2 ^ 64 ∧ e.1 = key (.skippedNonce h n)

theorem skipStep_keys {m : SkipStore} (hm : KeysOk m) {op : SkipOp} (ho : op.Valid) : KeysOk (skipStep m op) := by
  cases op with
  | store h n i =>
    intro e he
    rcases KV.mem_set.1 he with rfl | ⟨he, _⟩
    · exact ⟨h, n, ho.1, ho.2, rfl⟩
    · exact hm e he
  | remove h n => exact fun e he => hm e (KV.mem_del.1 he).1
  | clean h => exact fun e he => hm e (List.mem_filter.1 he).1
  | cleanAll => exact fun e he => hm e (List.mem_filter.1 he).1

theorem skipRun_keys {ops : List SkipOp} (ho : ∀ op ∈ ops, op.Valid) : KeysOk (skipRun ops) := by
  unfold skipRun
  suffices h : ∀ m, KeysOk m → KeysOk (ops.foldl skipStep m) from h [] (by simp [KeysOk])
  induction ops with
  | nil => exact fun m hm => hm
  | cons op ops ih =>
    intro m hm
    exact ih (fun o h => ho o (List.mem_cons_of_mem _ h)) _ (skipStep_keys hm (ho op List.mem_cons_self))

theorem u64_first {hid : Nat} (h : hid < 2 ^ 64) : u64 hid = UInt8.ofNat (hid / 2 ^ 56) :: be 7 hid := by
  have : hid / 72057594037927936 % 256 = hid / 72057594037927936 := Nat.mod_eq_of_lt (by omega)
  simp [u64, be, le, Nat.div_div_eq_div_mul, this]

theorem skippedRange_none {hid h n : Nat} (hh : hid < 37 * 2 ^ 56) : inRange (skippedRange hid) (key (.skippedNonce h n)) = false := by
  rw [Bool.eq_false_iff, ne_eq, skippedRange, prefixStoreRange_iff, u64_first (by omega)]
  simp only [key, List.cons_prefix_cons, true_and, not_and]
  intro hc
  have h2 : hid / 2 ^ 56 < 37 := by rw [Nat.div_lt_iff_lt_mul (by decide)]; exact hh
  have := congrArg UInt8.toNat hc
  simp only [UInt8.toNat_ofNat'] at this
  rw [Nat.mod_eq_of_lt (by omega)] at this
  rw [this] at h2
  exact absurd h2 (by decide)

/-! ## Theorems -/

/-- Whatever was stored, the list of skipped nonces of a chain is empty, for every chain id below 37 · 2⁵⁶. -/
theorem skipped_never_listed {ops : List SkipOp} (ho : ∀ op ∈ ops, op.Valid) {hid : Nat} (hh : hid < 37 * 2 ^ 56) :
    listSkipped (skipRun ops) hid = [] := by
  have : (skipRun ops).filter (fun e => inRange (skippedRange hid) e.1) = [] := by
    rw [List.filter_eq_nil_iff]
    intro e he
    obtain ⟨h, n, _, _, hk⟩ := skipRun_keys ho e he
    rw [hk, skippedRange_none hh]
    simp
  simp [listSkipped, iterate, this, StableSort.sortBy]

/-- Cleaning the skipped nonces of a chain removes nothing. -/
theorem skipped_clean_does_nothing {ops : List SkipOp} (ho : ∀ op ∈ ops, op.Valid) {hid : Nat} (hh : hid < 37 * 2 ^ 56) :
    cleanSkipped (skipRun ops) hid = skipRun ops := by
  unfold cleanSkipped
  rw [List.filter_eq_self]
  intro e he
  obtain ⟨h, n, _, _, hk⟩ := skipRun_keys ho e he
  rw [hk, skippedRange_none hh]
  rfl

/-- The list over all chains has an entry for every stored nonce, but chain and nonce are both given as
37 · 2⁵⁶ + chain / 256. -/
theorem skipped_list_of_all_chains {ops : List SkipOp} (ho : ∀ op ∈ ops, op.Valid) :
    (listAllSkipped (skipRun ops)).length = (skipRun ops).length ∧
    ∀ e ∈ listAllSkipped (skipRun ops), ∃ hid nonce, skippedInfo (skipRun ops) hid nonce ≠ none ∧
      e.1 = 37 * 2 ^ 56 + hid / 256 ∧ e.2.1 = 37 * 2 ^ 56 + hid / 256 := by
  have hk := skipRun_keys ho
  have hall : (skipRun ops).filter (fun e => inRange allSkippedRange e.1) = skipRun ops := by
    rw [List.filter_eq_self]
    intro e he
    obtain ⟨h, n, _, _, hke⟩ := hk e he
    rw [hke, allSkippedRange, prefixStoreRange_iff]
    simp [key, List.cons_prefix_cons]
  have hp := StableSort.sortBy_perm (fun a b : Str × Skipped => !(blt b.1 a.1)) (skipRun ops)
  unfold listAllSkipped iterate
  rw [hall]
  refine ⟨by simp [hp.length_eq], ?_⟩
  intro e he
  obtain ⟨x, hx, rfl⟩ := List.mem_map.1 he
  have hx' := hp.mem_iff.1 hx
  obtain ⟨h, n, hh, hn, hkx⟩ := hk x hx'
  have hval : unbe ((x.1.drop 1).take 8) = 37 * 2 ^ 56 + h / 256 := by
    have e8 : (x.1.drop 1).take 8 = 0x25 :: be 7 (h / 256) := by
      have h8 : u64 h = be 7 (h / 256) ++ [UInt8.ofNat (h % 256)] := be_succ 7 h
      rw [hkx]
      simp [key, h8, List.take_append]
    have h7 : h / 256 < 256 ^ 7 := by omega
    rw [e8]
    have hu := unbe_be 7 (h / 256) h7
    unfold unbe at hu ⊢
    rw [List.reverse_cons]
    have hadd : ∀ (a : Str) (b : UInt8), unle (a ++ [b]) = unle a + 256 ^ a.length * b.toNat := by
      intro a b
      induction a with
      | nil => simp [unle]
      | cons y a ih => simp only [List.cons_append, unle, ih, List.length_cons, Nat.pow_succ, Nat.mul_add]; grind
    rw [hadd, hu]
    simp
    omega
  refine ⟨h, n, ?_, hval, hval⟩
  unfold skippedInfo
  rw [← hkx, ne_eq, KV.get_eq_none]
  intro hc
  exact hc x hx' rfl

/-- The query for one nonce gives what was recorded, as long as no chain was cleaned. -/
theorem skipped_query_partial {ops : List SkipOp} (ho : ∀ op ∈ ops, op.Valid) (hc : ∀ op ∈ ops, ∀ h, op ≠ .clean h)
    {hid nonce : Nat} (hh : hid < 2 ^ 64) (hn : nonce < 2 ^ 64) :
    skippedInfo (skipRun ops) hid nonce = recorded hid nonce ops.reverse := by
  have hrev : ∀ l : List SkipOp, (∀ op ∈ l, op.Valid) → (∀ op ∈ l, ∀ h, op ≠ .clean h) →
      skippedInfo (l.foldr (fun op m => skipStep m op) []) hid nonce = recorded hid nonce l ∧
      KeysOk (l.foldr (fun op m => skipStep m op) []) := by
    intro l
    induction l with
    | nil => exact fun _ _ => ⟨rfl, by simp [KeysOk]⟩
    | cons op l ih =>
      intro h1 h2
      obtain ⟨i1, i2⟩ := ih (fun o h => h1 o (List.mem_cons_of_mem _ h)) (fun o h => h2 o (List.mem_cons_of_mem _ h))
      have hv := h1 op List.mem_cons_self
      refine ⟨?_, skipStep_keys i2 hv⟩
      have hkey : ∀ h n, h < 2 ^ 64 → n < 2 ^ 64 →
          (key (.skippedNonce hid nonce) = key (.skippedNonce h n) ↔ h = hid ∧ n = nonce) := by
        intro h n hh' hn'
        constructor
        · intro he
          have := key_injective (show Obj.Valid (.skippedNonce hid nonce) from ⟨hh, hn⟩)
            (show Obj.Valid (.skippedNonce h n) from ⟨hh', hn'⟩) he
          cases this
          exact ⟨rfl, rfl⟩
        · rintro ⟨rfl, rfl⟩
          rfl
      simp only [List.foldr_cons]
      generalize l.foldr (fun op m => skipStep m op) [] = m at i1 i2
      cases op with
      | store h n i =>
        simp only [skipStep, storeSkipped, skippedInfo, recorded, KV.get_set, hkey h n hv.1 hv.2]
        split
        · rfl
        · exact i1
      | remove h n =>
        simp only [skipStep, removeSkipped, skippedInfo, recorded, KV.get_del, hkey h n hv.1 hv.2]
        split
        · rfl
        · exact i1
      | clean h => exact absurd rfl (h2 _ List.mem_cons_self h)
      | cleanAll =>
        simp only [skipStep, cleanAllSkipped, skippedInfo, recorded]
        rw [KV.get_eq_none]
        intro e he
        obtain ⟨he1, he2⟩ := List.mem_filter.1 he
        obtain ⟨h', n', _, _, hk⟩ := i2 e he1
        have : inRange allSkippedRange e.1 = true := by
          rw [hk, allSkippedRange, prefixStoreRange_iff]
          simp [key, List.cons_prefix_cons]
        rw [this] at he2
        cases he2
  have := (hrev ops.reverse (fun o h => ho o (List.mem_reverse.1 h)) (fun o h => hc o (List.mem_reverse.1 h))).1
  rw [List.foldr_reverse] at this
  exact this

/-! ## A concrete history -/

/-- Three nonces of chains 1 and 21 are stored, one is removed again. -/
def skipOps : List SkipOp := [.store 1 7 ⟨5, 9⟩, .store 1 8 ⟨6, 9⟩, .store 21 7 ⟨1, 2⟩, .remove 1 7]

example : ∀ op ∈ skipOps, op.Valid := by simp [skipOps, SkipOp.Valid]
example : skippedInfo (skipRun skipOps) 1 8 = some ⟨6, 9⟩ ∧ skippedInfo (skipRun skipOps) 1 7 = none ∧
    listSkipped (skipRun skipOps) 1 = [] ∧ (listAllSkipped (skipRun skipOps)).length = 2 := by decide +kernel

end Hyperion
