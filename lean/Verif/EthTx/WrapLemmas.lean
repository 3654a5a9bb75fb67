import Verif.EthTx.WrapSpec
import Verif.Addr.AddrProps
/-!
# Lemmas for C88
-/

namespace Wrap

open Addr

theorem value_from (bs : List Nat) : ∀ a, bs.foldl (fun a d => a * 256 + d) a = a * 256 ^ bs.length + value 256 bs := by
  unfold value
  induction bs with
  | nil => intro a; simp
  | cons b bs ih =>
    intro a
    rw [List.foldl_cons, List.foldl_cons, ih, ih (0 * 256 + b), List.length_cons, Nat.pow_succ, Nat.zero_mul,
      Nat.zero_add, Nat.add_mul, Nat.mul_assoc, Nat.mul_comm 256, Nat.add_assoc]

theorem value_cons (b : Nat) (bs : List Nat) : value 256 (b :: bs) = b * 256 ^ bs.length + value 256 bs := by
  have := value_from bs b
  rw [← this]
  show bs.foldl (fun a d => a * 256 + d) (0 * 256 + b) = _
  rw [Nat.zero_mul, Nat.zero_add]

theorem value_bytesAux (f : Nat) : ∀ (n : Nat) (acc : List Nat), n ≤ f →
    value 256 (bytesAux f n acc) = n * 256 ^ acc.length + value 256 acc := by
  induction f with
  | zero =>
    intro n acc h
    have h0 : n = 0 := by omega
    subst h0
    unfold bytesAux
    omega
  | succ f ih =>
    intro n acc h
    unfold bytesAux
    by_cases h0 : n = 0
    · rw [if_pos h0, h0]; omega
    · rw [if_neg h0, ih (n / 256) _ (by omega), value_cons, List.length_cons, Nat.pow_succ]
      have e := Nat.div_add_mod n 256
      generalize n / 256 = q at *
      generalize n % 256 = m at *
      subst e
      rw [Nat.add_mul, Nat.mul_comm 256 q, Nat.mul_assoc q 256, Nat.mul_comm 256, Nat.add_assoc]

theorem value_bytes (i : Int) : value 256 (bytes i) = i.natAbs := by
  unfold bytes
  rw [value_bytesAux _ _ _ (Nat.le_refl _)]
  simp [value]

theorem ofBytes_bytes {i : Int} (h : 0 ≤ i) : ofBytes (bytes i) = i := by
  unfold ofBytes
  rw [value_bytes]
  omega

theorem bytesAux_acc (f : Nat) : ∀ (n : Nat) (acc : List Nat), acc.length ≤ (bytesAux f n acc).length := by
  induction f with
  | zero => intro _ acc; exact Nat.le_refl _
  | succ f ih =>
    intro n acc
    unfold bytesAux
    split
    · exact Nat.le_refl _
    · have := ih (n / 256) (n % 256 :: acc)
      rw [List.length_cons] at this
      omega

theorem hexToAddress_text (up : Nat → Bool) {a : List Nat} (ha : IsAddr a) : hexToAddress (hexString up a) = a := by
  unfold hexToAddress hexString
  show bytesToAddress (hexBytes (evenHex (hexText up 0 a))) = a
  unfold evenHex
  rw [if_neg (by rw [hexText_length]; omega), hexBytes_text up a 0 ha.2]
  exact bytesToAddress_id ha.1

theorem hexToHash_text {h : List Nat} (hh : IsHash h) : hexToHash (hashString h) = h := by
  unfold hexToHash hashString hexString
  show bytesToHash (hexBytes (evenHex (hexText _ 0 h))) = h
  unfold evenHex
  rw [if_neg (by rw [hexText_length]; omega), hexBytes_text _ h 0 hh.2]
  unfold bytesToHash
  rw [hh.1]; rfl

theorem read_text (up : List Nat → Nat → Bool) (l : List (List Nat × List (List Nat))) (hl : IsAccesses l) :
    readAccesses (textAccesses up l) = l := by
  unfold readAccesses textAccesses
  induction l with
  | nil => rfl
  | cons t l ih =>
    rw [List.map_cons, List.map_cons, ih (fun t h => hl t (.tail _ h))]
    obtain ⟨h1, h2⟩ := hl t List.mem_cons_self
    congr 1
    dsimp only
    rw [hexToAddress_text _ h1, List.map_map]
    have : ∀ ks : List (List Nat), (∀ k ∈ ks, IsHash k) → ks.map (hexToHash ∘ hashString) = ks := by
      intro ks hk
      induction ks with
      | nil => rfl
      | cons k ks ih2 =>
        rw [List.map_cons, ih2 (fun k h => hk k (.tail _ h))]
        show hexToHash (hashString k) :: ks = _
        rw [hexToHash_text (hk k List.mem_cons_self)]
    rw [this _ h2]

theorem hexString_ne_nil (up : Nat → Bool) (a : List Nat) : hexString up a ≠ [] := by
  unfold hexString; exact List.cons_ne_nil _ _

theorem hexText_all (up : Nat → Bool) : ∀ (bs : List Nat) (i : Nat), (∀ b ∈ bs, b < 256) →
    (hexText up i bs).all (fun c => (hexValue c).isSome) = true
  | [], _, _ => rfl
  | b :: bs, i, h => by
    have hb := h b List.mem_cons_self
    rw [hexText, List.all_cons, List.all_cons, hexValue_digit _ _ (by omega), hexValue_digit _ _ (by omega),
      hexText_all up bs (i + 2) (fun x hx => h x (List.mem_cons_of_mem _ hx))]
    rfl

theorem isHexAddress_text (up : Nat → Bool) {a : List Nat} (ha : IsAddr a) : isHexAddress (hexString up a) = true := by
  show (decide ((hexText up 0 a).length = 40) && (hexText up 0 a).all fun c => (hexValue c).isSome) = true
  rw [hexText_all up a 0 ha.2, hexText_length, ha.1]
  rfl

theorem valid256_iff {i : Int} (h : 0 ≤ i) : valid256 i = true ↔ i < 2 ^ 256 := by
  unfold valid256
  rw [decide_eq_true_iff]
  omega

/-- When v tells a chain. -/
theorem deriveChain_isSome (v : List Nat) :
    (deriveChain v).isSome = true ↔ (ofBytes v = 27 ∨ ofBytes v = 28 ∨ 35 ≤ ofBytes v) := by
  unfold deriveChain ofBytes
  by_cases h0 : v.length = 0
  · rw [if_pos h0]
    have : v = [] := List.length_eq_zero_iff.1 h0
    subst this
    constructor
    · intro h; cases h
    · intro h
      have e : ((value 256 [] : Nat) : Int) = 0 := rfl
      rw [e] at h
      omega
  · rw [if_neg h0]
    generalize value 256 v = n
    split
    · constructor
      · intro h; cases h
      · intro h; omega
    · split
      · split
        · constructor
          · intro _; omega
          · intro _; rfl
        · split
          · constructor
            · intro h; cases h
            · intro h; omega
          · constructor
            · intro _; omega
            · intro _; rfl
      · constructor
        · intro _; omega
        · intro _; rfl

theorem deriveChain_eq (v : List Nat) (c : Nat) (hc : deriveChain v = some c) (h35 : 35 ≤ value 256 v) :
    c = (value 256 v - 35) / 2 := by
  unfold deriveChain at hc
  generalize value 256 v = n at *
  split at hc
  · cases hc
  · split at hc
    · cases hc
    · split at hc
      · split at hc
        · omega
        · split at hc
          · cases hc
          · exact (Option.some.inj hc).symm
      · exact (Option.some.inj hc).symm

end Wrap
